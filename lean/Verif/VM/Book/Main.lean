import Verif.VM.Book.Guards

/-!
# The interpreter does what the book says

`mean_sim`: by induction on syntax trees and on fuel, the meaning of a program over the objects of
the runtime (`Verif.VM.Source` with the layer of `Verif.VM.Objects` and the functions of
`Verif.VM.Natives`) is the one of `Verif.VM.Book.Sem`.
-/

set_option linter.unusedVariables false
set_option linter.unusedSimpArgs false

namespace Noja.VM.Book

open Noja.Graph (Obj Kind Heap Text text setFlag)

section
variable [Floats] {S : Setup} {D : List Ref} {e e' : Emb} {σ σ' : Store} {s s' s1 : SSt World} {α β γ δ : Type}
  {Q : Emb → SSt World → α → β → Prop} {Q' : Emb → SSt World → γ → δ → Prop}

/-! ## Combining steps -/

omit [Floats] in
/-- A first step that changes no object but those of cells. -/
theorem Sim.bind0 {m : M World α} {f : α → M World γ} {b : B β} {g : β → B δ}
    (h : Sim S [] e s Q (m s) (b σ))
    (k : ∀ e' σ' s' x y, Le [] e s e' s' → Inv S e' σ' s' → Q e' s' x y → Sim S D e' s' Q' (f x s') (g y σ')) :
    Sim S D e s Q' ((m >>= f) s) ((b >>= g) σ) := by
  show Sim S D e s Q' (M.bind m f s) (B.bind b g σ)
  unfold M.bind B.bind
  cases hb : b σ with
  | ok σ' y =>
    rw [hb] at h
    obtain ⟨s', a, e', hm, hl, hi, hq⟩ := h
    rw [hm]
    dsimp only
    have hk := k e' σ' s' a y hl hi hq
    cases hg : g y σ' with
    | ok σ'' z =>
      rw [hg] at hk
      obtain ⟨s'', c, e'', hf, hl', hi', hq'⟩ := hk
      exact ⟨s'', c, e'', hf, (hl.mono nofun).trans hl', hi', hq'⟩
    | err o => rw [hg] at hk; exact hk
    | off => trivial
    | more => rw [hg] at hk; exact hk
  | err o =>
    rw [hb] at h
    obtain ⟨w, hm, ho⟩ := h
    rw [hm]
    exact ⟨w, rfl, ho⟩
  | off => trivial
  | more =>
    rw [hb] at h
    have h' : m s = .more := h
    rw [h']
    exact rfl

omit [Floats] in
theorem Sim.from {x : Res World γ} {y : R δ} (hl : Le D e s e' s1) (k : Sim S D e' s1 Q' x y) : Sim S D e s Q' x y := by
  unfold Sim at k ⊢
  cases y with
  | ok σ' b =>
    obtain ⟨s', a, e', hm, hl', hi, hq⟩ := k
    exact ⟨s', a, e', hm, hl.trans hl', hi, hq⟩
  | err o => exact k
  | off => trivial
  | more => exact k

/-- A step of the interpreter that the book does not mention. -/
theorem Sim.silent {m : M World α} {f : α → M World γ} {y : R δ} {a : α} (hm : m s = .ok s1 a)
    (hl : Le D e s e s1) (k : Sim S D e s1 Q' (f a s1) y) : Sim S D e s Q' ((m >>= f) s) y := by
  refine Sim.from hl ?_
  show Sim S D e s1 Q' (M.bind m f s) y
  unfold M.bind
  rw [hm]
  exact k

omit [Floats] in
/-- The book says what the result is called. -/
theorem Sim.right {x : Res World α} {b : B β} {g : β → δ} {P : Emb → SSt World → α → δ → Prop} (h : Sim S D e s Q x (b σ))
    (hq : ∀ e s a b, Q e s a b → P e s a (g b)) :
    Sim S D e s P x ((b >>= fun v => (Pure.pure (g v) : B δ)) σ) := by
  show Sim S D e s P x (B.bind b _ σ)
  unfold B.bind
  cases hb : b σ with
  | ok σ' y =>
    rw [hb] at h
    obtain ⟨s', a, e', hm, hl, hi, h⟩ := h
    exact ⟨s', a, e', hm, hl, hi, hq _ _ _ _ h⟩
  | err o => rw [hb] at h; exact h
  | off => trivial
  | more => rw [hb] at h; exact h

omit [Floats] in
theorem assoc_sim {m : M World α} {g : α → M World γ} {h : α → M World Unit} {y : R δ}
    (k : Sim S D e s Q' (((m >>= fun r => h r >>= fun _ => (Pure.pure r : M World α)) >>= g) s) y) :
    Sim S D e s Q' ((m >>= fun r => h r >>= fun _ => g r) s) y := by
  have e : (((m >>= fun r => h r >>= fun _ => (Pure.pure r : M World α)) >>= g) s) = ((m >>= fun r => h r >>= fun _ => g r) s) := by
    show M.bind (M.bind m fun r => M.bind (h r) fun _ => (fun s => .ok s r)) g s = M.bind m (fun r => M.bind (h r) fun _ => g r) s
    unfold M.bind
    cases m s with
    | ok s a =>
      dsimp only
      cases h a s <;> rfl
    | _ => rfl
  rw [← e]
  exact k

omit [Floats] in
theorem Sim.after {m : M World α} {f : α → M World γ} {y : R δ} {a : α} (k : Sim S D e s Q' (f a s1) y)
    (hm : m s = .ok s1 a) : Sim S D e s Q' ((m >>= f) s) y := by
  show Sim S D e s Q' (M.bind m f s) y
  unfold M.bind
  rw [hm]
  exact k

omit [Floats] in
theorem lift_ok {f : World → Out World α} {w : World} {a : α} (hf : f s.w = .ok w a) (he : w.err = false) :
    lift (LG S) f s = .ok ⟨w, s.funs⟩ a := by
  unfold lift
  rw [hf]
  dsimp only
  rw [if_neg (by show ¬ w.err = true; rw [he]; simp)]

/-- An object that was made aside becomes a cell. -/
theorem Sim.close (ok : S.Ok) {m : M World Unit} {b : B β} {mkc : β → Cell} {l : Ref} (hl : Le [] e s e s1)
    (hlen : s.w.heap.length ≤ l) (hN : S.N ≤ l)
    (h : Sim S [l] e s1 (fun e s _ v => l ∉ e ∧ Holds e s l (mkc v)) (m s1) (b σ)) :
    Sim S [] e s Rep ((m >>= fun _ => (Pure.pure l : M World Ref)) s1)
      ((b >>= fun v => newCell (mkc v) >>= fun a => (Pure.pure (.ref a) : B Val)) σ) := by
  show Sim S [] e s Rep (M.bind m _ s1) (B.bind b _ σ)
  unfold M.bind B.bind
  cases hb : b σ with
  | ok σ' y =>
    rw [hb] at h
    obtain ⟨s', a, e', hm, hl', hi, h1, h2⟩ := h
    rw [hm]
    refine ⟨s', l, e' ++ [l], rfl, Le.push ?_ hlen, hi.push ok h1 hN h2, at_push hi l⟩
    exact ((hl.mono nofun).trans hl').mono fun x hx => by rw [List.mem_singleton.1 hx]; exact .inr hlen
  | err o =>
    rw [hb] at h
    obtain ⟨w, hm, ho⟩ := h
    rw [hm]
    exact ⟨w, rfl, ho⟩
  | off => trivial
  | more =>
    rw [hb] at h
    have h' : m s1 = .more := h
    rw [h']
    exact rfl

/-- An object aside has changed. -/
theorem set_aside (ok : S.Ok) (hi : Inv S e σ s) {l : Ref} {o : Obj} (ho : s.w.heap[l]? = some o)
    (hk : o.kind = .list ∨ o.kind = .map ∨ o.kind = .buffer) (he : l ∉ e) (hN : S.N ≤ l) (o' : Obj) :
    Le [l] e s e ⟨s.w.withHeap (s.w.heap.set l o'), s.funs⟩ ∧ Inv S e σ ⟨s.w.withHeap (s.w.heap.set l o'), s.funs⟩ ∧
      (s.w.withHeap (s.w.heap.set l o')).heap[l]? = some o' := by
  have hs : statics.length ≤ l := Nat.le_trans ok.statics hN
  have hl : Le [l] e s e ⟨s.w.withHeap (s.w.heap.set l o'), s.funs⟩ := .set ho hk (.inr (List.mem_singleton.2 rfl)) hs
  refine ⟨hl, hi.aside ok hl (fun x hx => by rw [List.mem_singleton.1 hx]; exact hN) (fun x hx => ?_) hi.err rfl,
    set_get ho hs⟩
  show (s.w.withHeap (s.w.heap.set l o')).heap[x]? = _
  rw [heap_set hs, List.getElem?_set_ne fun q => he (by rw [q]; exact hx)]

/-! ## Contexts -/

def CallSim (S : Setup) (call : Ref → List Ref → Nat → M World (List Ref))
    (call' : Val → List Val → Nat → B (List Val)) : Prop :=
  ∀ e σ s r v rs vs k, Inv S e σ s → Rep e s r v → All2 (Rep e s) rs vs →
    Sim S [] e s (fun e s => All2 (Rep e s)) (call r rs k s) (call' v vs k σ)

structure CtxRel (S : Setup) (e : Emb) (s : SSt World) (c : VM.Ctx World) (c' : Ctx) : Prop where
  L : c.L = LG S
  fuel : c.fuel = c'.fuel
  call : CallSim S c.call c'.call
  scope : At e c.locals c'.scope
  chain : ∃ rs, OChain s.w c.closure rs ∧ All2 (At e) rs c'.chain
  lib : c'.lib = S.lib
  fine : c'.fine = S.fine

omit [Floats] in
theorem CtxRel.le {c : VM.Ctx World} {c' : Ctx} (h : CtxRel S e s c c') (l : Le D e s e' s') : CtxRel S e' s' c c' where
  L := h.L
  fuel := h.fuel
  call := h.call
  scope := h.scope.le l
  chain := by
    obtain ⟨rs, a, b⟩ := h.chain
    exact ⟨rs, a.le l, b.imp fun _ _ h => h.le l⟩
  lib := h.lib
  fine := h.fine

omit [Floats] in
theorem newFunc_get (w : World) (clo : Option Ref) (l : Ref) :
    (VM.newFunc clo l w).1.heap = w.heap ++ [.opaque .closure] ++ [.opaque .func] ∧
    (VM.newFunc clo l w).2 = w.heap.length + 1 ∧
    (VM.newFunc clo l w).1.fclo (w.heap.length + 1) = some w.heap.length ∧
    (VM.newFunc clo l w).1.clos w.heap.length = some (clo, l) := by
  have e2 : (VM.newFunc clo l w).2 = w.heap.length + 1 := by
    show (statics ++ (w.dyn ++ [_])).length = (statics ++ w.dyn).length + 1
    simp [Nat.add_assoc]
  refine ⟨?_, e2, ?_, ?_⟩
  · show statics ++ (w.dyn ++ [_] ++ [_]) = statics ++ w.dyn ++ [_] ++ [_]
    simp only [List.append_assoc]
  · show (if w.heap.length + 1 = (VM.newFunc clo l w).2 then some w.heap.length else w.fclo _) = _
    rw [if_pos e2.symm]
  · show (if w.heap.length = w.heap.length then some (clo, l) else _) = _
    rw [if_pos rfl]

omit [Floats] in
theorem Chain.lt {w : World} {c : Ref} {rs : List Ref} (h : Chain w c rs) : c < w.heap.length := by
  cases h with
  | last a _ _ => exact get_lt a
  | more a _ _ _ _ => exact get_lt a

/-- Making a function. -/
theorem sim_func (ok : S.Ok) {c : VM.Ctx World} {c' : Ctx} (hi : Inv S e σ s) (hc : CtxRel S e s c c') (f : FunDef) :
    Sim S [] e s Rep
      ((lift (LG S) ((LG S).newFunc c.closure c.locals) >>= fun r => addFun r f >>= fun _ =>
        (Pure.pure r : M World Ref)) s)
      (.ok σ (.fn f (c'.scope :: c'.chain))) := by
  obtain ⟨e1, e2, e3, e4⟩ := newFunc_get s.w c.closure c.locals
  have he : (VM.newFunc c.closure c.locals s.w).1.err = false := hi.err
  have hl : Le [] e s e ⟨(VM.newFunc c.closure c.locals s.w).1,
      fun x => if x = (VM.newFunc c.closure c.locals s.w).2 then some f else s.funs x⟩ := by
    refine .grow (t := [.opaque .closure, .opaque .func]) ?_ (fun x hx => if_neg (Nat.ne_of_lt hx))
      (fun x hx => if_neg ?_) (fun _ _ => rfl) (fun _ _ => rfl) fun x hx => if_neg ?_
    · show (VM.newFunc c.closure c.locals s.w).1.heap = _
      rw [e1, List.append_assoc]
      rfl
    · show ¬ x = (VM.newFunc c.closure c.locals s.w).2
      rw [e2]; exact Nat.ne_of_lt (Nat.lt_succ_of_lt hx)
    · rw [e2]; exact Nat.ne_of_lt (Nat.lt_succ_of_lt hx)
  refine ⟨⟨(VM.newFunc c.closure c.locals s.w).1,
      fun x => if x = (VM.newFunc c.closure c.locals s.w).2 then some f else s.funs x⟩, (VM.newFunc c.closure c.locals s.w).2, e, ?_, hl, ?_, ?_⟩
  · show M.bind (lift (LG S) ((LG S).newFunc c.closure c.locals)) _ s = _
    unfold M.bind
    rw [lift_ok (f := (LG S).newFunc c.closure c.locals) (a := (VM.newFunc c.closure c.locals s.w).2) rfl he]
    rfl
  · refine hi.same ok hl (fun x hx => ?_) he rfl
    show (VM.newFunc c.closure c.locals s.w).1.heap[x]? = _
    rw [e1, List.append_assoc, List.getElem?_append_left (hi.low x hx).2]
  · obtain ⟨rs, h1, h2⟩ := hc.chain
    have hcl : (VM.newFunc c.closure c.locals s.w).1.heap[s.w.heap.length]? = some (.opaque .closure) := by
      rw [e1, List.append_assoc, List.getElem?_append_right (Nat.le_refl _)]; simp
    have hlo : c.locals < s.w.heap.length := (hi.low _ (List.mem_of_getElem? hc.scope)).2
    refine ⟨?_, ?_, s.w.heap.length, c.locals :: rs, ?_, ?_, ⟨hc.scope, h2⟩⟩
    · show (VM.newFunc c.closure c.locals s.w).1.heap[(VM.newFunc c.closure c.locals s.w).2]? = _
      rw [e2, e1, List.getElem?_append_right (by simp)]
      simp
    · exact if_pos rfl
    · show (VM.newFunc c.closure c.locals s.w).1.fclo (VM.newFunc c.closure c.locals s.w).2 = _
      rw [e2]; exact e3
    · cases hcc : c.closure with
      | none =>
        rw [hcc] at h1 e4 hcl
        have : rs = [] := h1
        subst this
        exact .last hcl e4 hlo
      | some p =>
        rw [hcc] at h1 e4 hcl hl
        have h1' : Chain s.w p rs := h1
        exact .more hcl e4 hlo h1'.lt (h1'.le hl)

/-- A new scope. -/
theorem sim_scope (ok : S.Ok) (hi : Inv S e σ s) (hN : S.N ≤ s.w.heap.length) :
    Sim S D e s (fun e _ => At e) (lift (LG S) (LG S).newScope s) (newCell (.scope []) σ) := by
  have hr : (s.w.alloc (.map [])).1.heap[s.w.heap.length]? = some (.map []) := alloc_get s.w (.map [])
  show Sim S D e s (fun e _ => At e) (lift (LS S) (LS S).newScope s) _
  refine Sim.lift (w := (s.w.alloc (.map [])).1) (a := (s.w.alloc (.map [])).2) (e' := e ++ [s.w.heap.length]) rfl
    (Le.push (.alloc D e s _) (Nat.le_refl _)) ?_ (at_push hi _)
  refine (hi.alloc ok (.map [])).push ok (c := .scope []) (fun h => absurd (hi.low _ h).2 (Nat.lt_irrefl _)) hN ?_
  exact ⟨[], ⟨[], hr, nofun, fun n => rfl⟩, trivial⟩

/-! ## Loops -/

def CtlRel (e : Emb) (s : SSt World) : VM.Ctl → Ctl → Prop
  | .normal, .normal => True
  | .brk, .brk => True
  | .ret rs, .ret vs => All2 (Rep e s) rs vs
  | _, _ => False

theorem while_sim {c : VM.Ctx World} {c' : Ctx} {m : M World Bool} {n : M World VM.Ctl} {m' : B Bool} {n' : B Ctl}
    (hm : ∀ {e σ s}, Inv S e σ s → CtxRel S e s c c' → Sim S [] e s (fun _ _ a b => a = b) (m s) (m' σ))
    (hn : ∀ {e σ s}, Inv S e σ s → CtxRel S e s c c' → Sim S [] e s CtlRel (n s) (n' σ)) :
    ∀ (k : Nat) {e σ s}, Inv S e σ s → CtxRel S e s c c' →
      Sim S [] e s CtlRel (VM.whileLoop k m n s) (whileLoop k m' n' σ)
  | 0, _, _, _, _, _ => rfl
  | k + 1, e, σ, s, hi, hc => by
    unfold VM.whileLoop whileLoop
    refine Sim.bind (hm hi hc) fun e1 σ1 s1 x y l1 hi h => ?_
    subst h
    have hc := hc.le l1
    cases x with
    | false => exact Sim.pure hi trivial
    | true =>
      refine Sim.bind (hn hi hc) fun e2 σ2 s2 x y l2 hi h => ?_
      cases x <;> cases y <;> first | exact h.elim | skip
      · exact while_sim hm hn k hi (hc.le l2)
      · exact Sim.pure hi trivial
      · exact Sim.pure hi h

theorem do_sim {c : VM.Ctx World} {c' : Ctx} {m : M World Bool} {n : M World VM.Ctl} {m' : B Bool} {n' : B Ctl}
    (hm : ∀ {e σ s}, Inv S e σ s → CtxRel S e s c c' → Sim S [] e s (fun _ _ a b => a = b) (m s) (m' σ))
    (hn : ∀ {e σ s}, Inv S e σ s → CtxRel S e s c c' → Sim S [] e s CtlRel (n s) (n' σ)) :
    ∀ (k : Nat) {e σ s}, Inv S e σ s → CtxRel S e s c c' →
      Sim S [] e s CtlRel (VM.doLoop k m n s) (doLoop k m' n' σ)
  | 0, _, _, _, _, _ => rfl
  | k + 1, e, σ, s, hi, hc => by
    unfold VM.doLoop doLoop
    refine Sim.bind (hn hi hc) fun e2 σ2 s2 x y l2 hi h => ?_
    have hc := hc.le l2
    cases x <;> cases y <;> first | exact h.elim | skip
    · refine Sim.bind (hm hi hc) fun e1 σ1 s1 x y l1 hi h => ?_
      subst h
      have hc := hc.le l1
      cases x with
      | false => exact Sim.pure hi trivial
      | true => exact do_sim hm hn k hi hc
    · exact Sim.pure hi trivial
    · exact Sim.pure hi h

/-! ## Parameters -/

def Val.isNone : Val → Bool
  | .none => true
  | _ => false

omit [Floats] in
theorem Looks.none_iff {o : Obj} {v : Val} (h : Looks σ o v) : decide (o.kind = .none) = v.isNone := by
  cases v with
  | ref a => rcases h with ⟨_, _, rfl, _⟩ | ⟨_, _, rfl, _⟩ | ⟨_, _, rfl, _⟩ | ⟨_, rfl, _⟩ <;> rfl
  | str t => rw [h.1]; rfl
  | type t => rcases TyLooks.cases h with ⟨_, rfl⟩ | rfl | ⟨_, _, rfl⟩ | ⟨_, rfl⟩ <;> rfl
  | _ => rw [show o = _ from h]; rfl

theorem default_sim {r : Ref} {v : Val} {d : Option (M World Ref)} {d' : Option (B Val)} (hi : Inv S e σ s) (hr : Rep e s r v)
    (hd : match d, d' with
      | none, none => True
      | some d, some d' => Sim S [] e s Rep (d s) (d' σ)
      | _, _ => False) :
    Sim S [] e s Rep (orElse (LG S) r d s) (orDefault v d' σ) := by
  cases d with
  | none =>
    cases d' with
    | some d' => exact hd.elim
    | none =>
      have : orDefault v none = Pure.pure v := by cases v <;> rfl
      rw [this]
      exact Sim.pure hi hr
  | some d =>
    cases d' with
    | none => exact hd.elim
    | some d' =>
      obtain ⟨o, ho, hl⟩ := hr.looks hi
      have hk := hl.none_iff
      have hn : (LG S).isNone r s.w = .ok s.w (decide (o.kind = .none)) := by
        show (VM.kindOf r s.w).bind _ = _
        unfold VM.kindOf
        rw [ho]
        rfl
      refine Sim.silent (lift_ok hn hi.err) (.refl _ _ _) ?_
      rw [hk]
      cases v with
      | none => exact hd
      | _ => exact Sim.pure hi hr

theorem isType_sim (ok : S.Ok) (hi : Inv S e σ s) {t r : Ref} {tv v : Val} (ht : Rep e s t tv) (hr : Rep e s r v) :
    Sim S [] e s (fun _ _ a b => a = b) (lift (LG S) ((LG S).isType t r) s) (isA tv v σ) := by
  refine Sim.hush (f := (LS S).isType t r) hi ?_ (fun o => ?_) ?_
  · unfold isA
    cases hq : isOf σ typeDepth tv v with
    | none => trivial
    | some b =>
    refine Sim.lift (w := s.w) (a := b) ?_ (.refl _ _ _) hi rfl
    show (outOf s.w (Graph.isTypeOf S.C.hit s.w.heap S.C.fuel s.w.err t r)).bind _ = _
    rw [show s.w.err = false from hi.err, isOf_sim ok hi typeDepth ok.deep ht.toP hr hq]
    show Out.ok _ _ = _
    rw [err_false hi.err]
  · unfold isA
    cases isOf σ typeDepth tv v <;> exact nofun
  · unfold isA
    cases isOf σ typeDepth tv v <;> exact nofun

theorem check_sim (ok : S.Ok) {r : Ref} {v : Val} {t : Option (M World Ref)} {t' : Option (B Val)} (hi : Inv S e σ s)
    (hr : Rep e s r v)
    (hd : match t, t' with
      | none, none => True
      | some t, some t' => Sim S [] e s Rep (t s) (t' σ)
      | _, _ => False) :
    Sim S [] e s (fun _ _ _ _ => True) (checkArg (LG S) r t s) (checkType v t' σ) := by
  cases t with
  | none =>
    cases t' with
    | some d' => exact hd.elim
    | none => exact Sim.pure hi trivial
  | some t =>
    cases t' with
    | none => exact hd.elim
    | some t' =>
      refine Sim.bind hd fun e1 σ1 s1 x y l1 hi h => ?_
      refine Sim.bind (isType_sim ok hi h (hr.le l1)) fun e2 σ2 s2 x y l2 hi h => ?_
      subst h
      cases x with
      | true => exact Sim.pure hi trivial
      | false => exact Sim.stop hi ⟨s2.w, rfl, rfl⟩

end

/-! ## Syntax trees -/

section
variable [Floats] {S : Setup} {c : VM.Ctx World} {c' : Ctx}

omit [Floats] in
theorem low_of {e : Emb} {σ : Store} {s : SSt World} (hi : Inv S e σ s) (hc : CtxRel S e s c c') : S.N ≤ s.w.heap.length := by
  have := hi.low _ (List.mem_of_getElem? hc.scope)
  exact Nat.le_of_lt (Nat.lt_of_le_of_lt this.1 this.2)

omit [Floats] in
theorem boolRef_if {b : Bool} : (if b = true then (Pure.pure (LG S).tru : M World Ref) else Pure.pure (LG S).fls) = Pure.pure (boolRef b) := by
  cases b <;> rfl

mutual
theorem expr_sim (ok : S.Ok) : ∀ (x : Expr) {e : Emb} {σ : Store} {s : SSt World}, Inv S e σ s → CtxRel S e s c c' →
    Sim S [] e s Rep (x.eval c s) (expr c' x σ)
  | .none, e, σ, s, hi, hc => by
    simp only [Expr.eval, expr, hc.L]
    exact Sim.pure hi (rep_none e s)
  | .tru, e, σ, s, hi, hc => by
    simp only [Expr.eval, expr, hc.L]
    exact Sim.pure hi (rep_bool e s true)
  | .fls, e, σ, s, hi, hc => by
    simp only [Expr.eval, expr, hc.L]
    exact Sim.pure hi (rep_bool e s false)
  | .int v, e, σ, s, hi, hc => by
    simp only [Expr.eval, expr, hc.L]
    exact sim_int ok hi v
  | .float x, e, σ, s, hi, hc => by
    simp only [Expr.eval, expr, hc.L]
    exact sim_float ok hi x
  | .str t, e, σ, s, hi, hc => by
    simp only [Expr.eval, hc.L]
    unfold expr
    exact sim_str ok hi t
  | .ident n, e, σ, s, hi, hc => by
    simp only [Expr.eval, expr, hc.L, hc.lib]
    obtain ⟨rs, h1, h2⟩ := hc.chain
    exact simG_getVar ok hi hc.scope h1 h2 n
  | .un op a, e, σ, s, hi, hc => by
    simp only [Expr.eval, expr, hc.L]
    refine Sim.bind (expr_sim ok a hi hc) fun e1 σ1 s1 x y l1 hi h => ?_
    by_cases hp : op = .pos
    · subst hp
      exact Sim.pure hi h
    · rw [if_neg hp]
      exact sim_un ok hi op h
  | .bin op a b, e, σ, s, hi, hc => by
    simp only [Expr.eval, expr, hc.L]
    refine Sim.bind (expr_sim ok a hi hc) fun e1 σ1 s1 x y l1 hi h => ?_
    refine Sim.bind (expr_sim ok b hi (hc.le l1)) fun e2 σ2 s2 x' y' l2 hi h' => ?_
    exact sim_bin ok hi op (h.le l2) h'
  | .and a b, e, σ, s, hi, hc => by
    simp only [Expr.eval, expr, hc.L]
    refine Sim.bind (expr_sim ok a hi hc) fun e1 σ1 s1 x y l1 hi h => ?_
    refine Sim.bind (sim_truth hi h) fun e2 σ2 s2 p p' l2 hi hp => ?_
    subst hp
    cases p with
    | false => exact Sim.pure hi (rep_bool _ _ false)
    | true =>
      simp only [if_true]
      refine Sim.bind (expr_sim ok b hi ((hc.le l1).le l2)) fun e3 σ3 s3 x y l3 hi h => ?_
      refine Sim.bind (sim_truth hi h) fun e4 σ4 s4 q q' l4 hi hq => ?_
      subst hq
      rw [boolRef_if]
      exact Sim.pure hi (rep_bool _ _ q)
  | .or a b, e, σ, s, hi, hc => by
    simp only [Expr.eval, expr, hc.L]
    refine Sim.bind (expr_sim ok a hi hc) fun e1 σ1 s1 x y l1 hi h => ?_
    refine Sim.bind (sim_truth hi h) fun e2 σ2 s2 p p' l2 hi hp => ?_
    subst hp
    cases p with
    | true => exact Sim.pure hi (rep_bool _ _ true)
    | false =>
      simp only [Bool.false_eq_true, if_false]
      refine Sim.bind (expr_sim ok b hi ((hc.le l1).le l2)) fun e3 σ3 s3 x y l3 hi h => ?_
      refine Sim.bind (sim_truth hi h) fun e4 σ4 s4 q q' l4 hi hq => ?_
      subst hq
      rw [boolRef_if]
      exact Sim.pure hi (rep_bool _ _ q)
  | .assign t x, e, σ, s, hi, hc => by
    simp only [Expr.eval, expr]
    refine Sim.bind (expr_sim ok x hi hc) fun e1 σ1 s1 x y l1 hi h => ?_
    refine Sim.bind (store_sim ok t hi (hc.le l1) h) fun e2 σ2 s2 _ _ l2 hi _ => ?_
    exact Sim.pure hi (h.le l2)
  | .massign t ts k, e, σ, s, hi, hc => by
    simp only [Expr.eval, expr]
    refine Sim.bind (call_sim ok k (ts.count + 1) hi hc) fun e1 σ1 s1 x y l1 hi h => ?_
    cases x with
    | nil =>
      cases y with
      | nil => trivial
      | cons v vs => exact h.elim
    | cons r rs =>
      cases y with
      | nil => exact h.elim
      | cons v vs =>
        refine Sim.bind (stores_sim ok ts hi (hc.le l1) h.2) fun e2 σ2 s2 _ _ l2 hi _ => ?_
        refine Sim.bind (store_sim ok t hi ((hc.le l1).le l2) (h.1.le l2)) fun e3 σ3 s3 _ _ l3 hi _ => ?_
        exact Sim.pure hi ((h.1.le l2).le l3)
  | .list items, e, σ, s, hi, hc => by
    simp only [Expr.eval, expr, hc.L]
    by_cases hn : items.count < 2 ^ 31
    · rw [if_pos hn]
      have hN := low_of hi hc
      have hr : (s.w.alloc (.list [])).1.heap[s.w.heap.length]? = some (.list []) := alloc_get s.w (.list [])
      have hl : Le [] e s e ⟨(s.w.alloc (.list [])).1, s.funs⟩ := .alloc [] e s _
      have hx : lift (LG S) ((LG S).newList items.count) s = .ok ⟨(s.w.alloc (.list [])).1, s.funs⟩ s.w.heap.length :=
        lift_ok rfl hi.err
      have hf := fill_sim ok items (l := s.w.heap.length) (rs := []) (vs := []) (hi.alloc ok (.list [])) (hc.le hl) hr trivial
        (fun h => absurd (hi.low _ h).2 (Nat.lt_irrefl _)) hN (by simpa using hn)
      have hcl := Sim.close (mkc := .list) ok hl (Nat.le_refl _) hN hf
      exact Sim.after (a := s.w.heap.length) (by exact hcl) hx
    · rw [if_neg hn]; trivial
  | .map items, e, σ, s, hi, hc => by
    simp only [Expr.eval, expr, hc.L]
    have hN := low_of hi hc
    have hr : (s.w.alloc (.map [])).1.heap[s.w.heap.length]? = some (.map []) := alloc_get s.w (.map [])
    have hl : Le [] e s e ⟨(s.w.alloc (.map [])).1, s.funs⟩ := .alloc [] e s _
    have hx : lift (LG S) ((LG S).newMap items.count) s = .ok ⟨(s.w.alloc (.map [])).1, s.funs⟩ s.w.heap.length :=
      lift_ok rfl hi.err
    have hf := pairs_sim ok items (l := s.w.heap.length) (rs := []) (es := []) (hi.alloc ok (.map [])) (hc.le hl) hr trivial
      nofun (fun h => absurd (hi.low _ h).2 (Nat.lt_irrefl _)) hN
    have hcl := Sim.close (mkc := .map) ok hl (Nat.le_refl _) hN hf
    exact Sim.after (a := s.w.heap.length) (by exact hcl) hx
  | .call k, e, σ, s, hi, hc => by
    simp only [Expr.eval, expr]
    refine Sim.bind (call_sim ok k 1 hi hc) fun e1 σ1 s1 x y l1 hi h => ?_
    cases y with
    | nil => trivial
    | cons v vs =>
      cases vs with
      | cons _ _ => trivial
      | nil =>
        cases x with
        | nil => exact h.elim
        | cons r rs =>
          cases rs with
          | cons _ _ => exact h.2.elim
          | nil => exact Sim.pure hi h.1
  | .select a b, e, σ, s, hi, hc => by
    simp only [Expr.eval, expr, hc.L]
    refine Sim.bind (expr_sim ok a hi hc) fun e1 σ1 s1 x y l1 hi h => ?_
    refine Sim.bind (expr_sim ok b hi (hc.le l1)) fun e2 σ2 s2 x' y' l2 hi h' => ?_
    exact simG_select ok hi (h.le l2) h'
  | .func _ f, e, σ, s, hi, hc => by
    simp only [Expr.eval, expr, hc.L]
    exact sim_func ok hi hc f
theorem store_sim (ok : S.Ok) : ∀ (x : Target) {e : Emb} {σ : Store} {s : SSt World} {r : Ref} {v : Val}, Inv S e σ s →
    CtxRel S e s c c' → Rep e s r v → Sim S [] e s (fun _ _ _ _ => True) (x.store c r s) (store c' x v σ)
  | .var n, e, σ, s, r, v, hi, hc, hr => by
    simp only [Target.store, store, hc.L, hc.fine]
    exact simG_setVar ok hi hc.scope n hr
  | .sel a b, e, σ, s, r, v, hi, hc, hr => by
    simp only [Target.store, store, hc.L, hc.fine]
    refine Sim.bind (expr_sim ok a hi hc) fun e1 σ1 s1 x y l1 hi h => ?_
    refine Sim.bind (expr_sim ok b hi (hc.le l1)) fun e2 σ2 s2 x' y' l2 hi h' => ?_
    exact simG_insert ok hi (h.le l2) h' ((hr.le l1).le l2)
theorem stores_sim (ok : S.Ok) : ∀ (x : Targets) {e : Emb} {σ : Store} {s : SSt World} {rs : List Ref} {vs : List Val}, Inv S e σ s →
    CtxRel S e s c c' → All2 (Rep e s) rs vs → Sim S [] e s (fun _ _ _ _ => True) (x.store c rs s) (stores c' x vs σ)
  | .one t, e, σ, s, rs, vs, hi, hc, hr => by
    cases vs with
    | nil => simp only [stores]; trivial
    | cons v vs =>
      cases vs with
      | cons _ _ => simp only [stores]; trivial
      | nil =>
        cases rs with
        | nil => exact hr.elim
        | cons r rs =>
          cases rs with
          | cons _ _ => exact hr.2.elim
          | nil =>
            simp only [stores, Targets.store]
            exact store_sim ok t hi hc hr.1
  | .cons t ts, e, σ, s, rs, vs, hi, hc, hr => by
    cases vs with
    | nil => simp only [stores]; trivial
    | cons v vs =>
      cases rs with
      | nil => exact hr.elim
      | cons r rs =>
        simp only [stores, Targets.store]
        refine Sim.bind (stores_sim ok ts hi hc hr.2) fun e2 σ2 s2 _ _ l2 hi _ => ?_
        exact store_sim ok t hi (hc.le l2) (hr.1.le l2)
theorem call_sim (ok : S.Ok) : ∀ (x : Call) (k : Nat) {e : Emb} {σ : Store} {s : SSt World}, Inv S e σ s → CtxRel S e s c c' →
    Sim S [] e s (fun e s => All2 (Rep e s)) (x.eval c k s) (call c' x k σ)
  | .fn f args, k, e, σ, s, hi, hc => by
    simp only [Call.eval, call]
    refine Sim.bind (exprs_sim ok args hi hc) fun e1 σ1 s1 x y l1 hi h => ?_
    refine Sim.bind (expr_sim ok f hi (hc.le l1)) fun e2 σ2 s2 g g' l2 hi hg => ?_
    exact hc.call _ _ _ _ _ _ _ _ hi hg (Rep.all h l2).reverse
  | .method a b args, k, e, σ, s, hi, hc => by
    simp only [Call.eval, call, hc.L]
    refine Sim.bind (exprs_sim ok args hi hc) fun e1 σ1 s1 x y l1 hi h => ?_
    refine Sim.bind (expr_sim ok a hi (hc.le l1)) fun e2 σ2 s2 o o' l2 hi ho => ?_
    refine Sim.bind (expr_sim ok b hi ((hc.le l1).le l2)) fun e3 σ3 s3 i i' l3 hi hk => ?_
    refine Sim.bind (simG_select ok hi (ho.le l3) hk) fun e4 σ4 s4 g g' l4 hi hg => ?_
    exact hc.call _ _ _ _ _ (o :: x.reverse) (o' :: y.reverse) _ hi hg
      ⟨(ho.le l3).le l4, (Rep.all (Rep.all (Rep.all h l2) l3) l4).reverse⟩
theorem exprs_sim (ok : S.Ok) : ∀ (x : Exprs) {e : Emb} {σ : Store} {s : SSt World}, Inv S e σ s → CtxRel S e s c c' →
    Sim S [] e s (fun e s => All2 (Rep e s)) (x.eval c s) (exprs c' x σ)
  | .nil, e, σ, s, hi, hc => by
    simp only [Exprs.eval, exprs]
    exact Sim.pure hi trivial
  | .cons x xs, e, σ, s, hi, hc => by
    simp only [Exprs.eval, exprs]
    refine Sim.bind (expr_sim ok x hi hc) fun e1 σ1 s1 r v l1 hi h => ?_
    refine Sim.bind (exprs_sim ok xs hi (hc.le l1)) fun e2 σ2 s2 rs vs l2 hi hs => ?_
    exact Sim.pure hi (⟨h.le l2, hs⟩ : All2 _ (r :: rs) (v :: vs))
theorem fill_sim (ok : S.Ok) : ∀ (x : Exprs) {e : Emb} {σ : Store} {s : SSt World} {l : Ref} {rs : List Ref} {vs : List Val},
    Inv S e σ s → CtxRel S e s c c' → s.w.heap[l]? = some (.list rs) → All2 (Rep e s) rs vs → l ∉ e → S.N ≤ l →
    rs.length + x.count < 2 ^ 31 →
    Sim S [l] e s (fun e s _ vs' => l ∉ e ∧ Holds e s l (.list (vs ++ vs'))) (x.fill c l rs.length s) (exprs c' x σ)
  | .nil, e, σ, s, l, rs, vs, hi, hc, hl, hr, he, hN, hn => by
    simp only [Exprs.fill, exprs]
    exact Sim.pure hi ⟨he, rs, hl, by rw [List.append_nil]; exact hr⟩
  | .cons x xs, e, σ, s, l, rs, vs, hi, hc, hl, hr, he, hN, hn => by
    simp only [Exprs.fill, exprs, hc.L]
    have hk : (s.w.alloc (.int rs.length)).1.heap[s.w.heap.length]? = some (.int rs.length) := alloc_get s.w _
    have l0 : Le [] e s e ⟨(s.w.alloc (.int rs.length)).1, s.funs⟩ := .alloc [] e s _
    have hx : lift (LG S) ((LG S).int rs.length) s = .ok ⟨(s.w.alloc (.int rs.length)).1, s.funs⟩ s.w.heap.length :=
      lift_ok rfl hi.err
    have hl0 := l0.frame l (get_lt hl) he nofun
    rw [hl] at hl0
    refine Sim.silent hx (l0.mono nofun) ?_
    have hi0 := hi.alloc ok (.int rs.length)
    refine Sim.bind0 (expr_sim ok x hi0 (hc.le l0)) fun e1 σ1 s1 r v l1 hi1 h => ?_
    have hl1 := l1.frame l (get_lt hl0) he nofun
    rw [hl0] at hl1
    have he1 : l ∉ e1 := fun hm => by
      rcases l1.fresh l hm with h | h
      · exact he h
      · exact absurd (get_lt hl0) (Nat.not_lt_of_le h)
    obtain ⟨l2, hi2, hl2⟩ := set_aside ok hi1 hl1 (.inl rfl) he1 hN (.list (rs ++ [r]))
    have ik : intKey s1.w.heap s.w.heap.length = some (rs.length : Int) := by
      unfold intKey
      rw [l1.obj _ _ hk nofun nofun nofun]
    have hins : (LG S).insert l s.w.heap.length r s1.w = .ok (s1.w.withHeap (s1.w.heap.set l (.list (rs ++ [r])))) () := by
      have ig : (LG S).insert l s.w.heap.length r s1.w = insertObj (std S.C) l s.w.heap.length r s1.w := by
        show insertG (std S.C) S.pos l s.w.heap.length r s1.w = _
        unfold insertG
        rw [hl1]
      have io := ig.trans (insertObj_list (C := std S.C) (key := s.w.heap.length) (v := r) hl1)
      rw [ik] at io
      dsimp only at io
      have hlt : rs.length < 2 ^ 31 := by omega
      rw [toI32_of_isI32 (by unfold IsI32; omega), if_neg (by omega), if_pos rfl] at io
      exact io
    refine Sim.silent (lift_ok hins hi1.err) l2 ?_
    have hall : All2 (Rep e1 ⟨s1.w.withHeap (s1.w.heap.set l (.list (rs ++ [r]))), s1.funs⟩) (rs ++ [r]) (vs ++ [v]) :=
      Rep.all ((Rep.all (Rep.all hr l0) l1).append ⟨h, trivial⟩) l2
    have ih := fill_sim ok xs (l := l) hi2 (((hc.le l0).le l1).le l2) hl2 hall he1 hN (by
      rw [List.length_append]
      have : (Exprs.cons x xs).count = xs.count + 1 := rfl
      simp only [List.length_singleton]
      omega)
    rw [List.length_append, List.length_singleton] at ih
    refine Sim.right (g := fun vs => v :: vs) ih fun e s a b h => ?_
    rw [List.append_assoc] at h
    exact h
theorem pairs_sim (ok : S.Ok) : ∀ (x : Pairs) {e : Emb} {σ : Store} {s : SSt World} {l : Ref} {rs : List (Ref × Ref)} {es : List (Val × Val)},
    Inv S e σ s → CtxRel S e s c c' → s.w.heap[l]? = some (.map rs) → All2 (Rep2 e s) rs es →
    (∀ q ∈ es, atom q.1 = true) → l ∉ e → S.N ≤ l →
    Sim S [l] e s (fun e s _ es' => l ∉ e ∧ Holds e s l (.map es')) (x.fill c l s) (pairs c' x es σ)
  | .nil, e, σ, s, l, rs, es, hi, hc, hl, hr, ha, he, hN => by
    simp only [Pairs.fill, pairs]
    exact Sim.pure hi ⟨he, rs, hl, hr, ha⟩
  | .cons k v ps, e, σ, s, l, rs, es, hi, hc, hl, hr, ha, he, hN => by
    simp only [Pairs.fill, pairs, hc.L, hc.fine]
    have keep : ∀ {e : Emb} {s : SSt World} {e' : Emb} {s' : SSt World}, Le [] e s e' s' → l ∉ e → s.w.heap[l]? = some (.map rs) →
        l ∉ e' ∧ s'.w.heap[l]? = some (.map rs) := by
      intro e s e' s' l1 he hl
      refine ⟨fun hm => ?_, by rw [l1.frame l (get_lt hl) he nofun]; exact hl⟩
      rcases l1.fresh l hm with h | h
      · exact he h
      · exact absurd (get_lt hl) (Nat.not_lt_of_le h)
    refine Sim.bind0 (expr_sim ok k hi hc) fun e1 σ1 s1 x x' l1 hi h => ?_
    obtain ⟨he, hl⟩ := keep l1 he hl
    refine Sim.bind0 (expr_sim ok v hi (hc.le l1)) fun e2 σ2 s2 y y' l2 hi h' => ?_
    obtain ⟨he, hl⟩ := keep l2 he hl
    cases hat : atom x' with
    | false => trivial
    | true =>
      cases hfine : S.fine (keysIn es) with
      | false => trivial
      | true =>
      rw [Bool.and_self, if_pos rfl]
      have hr2 : All2 (Rep2 e2 s2) rs es := hr.imp fun _ _ h => ⟨(h.1.le l1).le l2, (h.2.le l1).le l2⟩
      obtain ⟨rs', hins, hall⟩ := insert_map ok hi (h.le l2) hat h' hl hr2 ha
      obtain ⟨l3, hi3, hl3⟩ := set_aside ok hi hl (.inr (.inl rfl)) he hN (.map rs')
      have hkey : isKey s2.w.heap x = true := by
        obtain ⟨k', -, hk'⟩ := rep_key (h.le l2) hat
        exact hk'.isKey
      have hins' := (insertG_map (C := std S.C) (pos := S.pos) (v := y) hl hkey (map_fine ok hr2 ha hfine)).trans hins
      refine Sim.silent (lift_ok (f := (LG S).insert l x y) hins' hi.err) l3 ?_
      exact pairs_sim ok ps hi3 (((hc.le l1).le l2).le l3) hl3 (hall.imp fun _ _ h => ⟨h.1.le l3, h.2.le l3⟩)
        (putKey_atoms hat ha) he hN
theorem bind_sim (ok : S.Ok) : ∀ (x : Params) {e : Emb} {σ : Store} {s : SSt World} {rs : List Ref} {vs : List Val}, Inv S e σ s →
    CtxRel S e s c c' → All2 (Rep e s) rs vs → Sim S [] e s (fun _ _ _ _ => True) (x.bind c rs s) (bind c' x vs σ)
  | .nil, e, σ, s, rs, vs, hi, hc, hr => by
    cases vs with
    | cons _ _ => simp only [bind]; trivial
    | nil =>
      cases rs with
      | cons _ _ => exact hr.elim
      | nil =>
        simp only [bind, Params.bind]
        exact Sim.pure hi trivial
  | .cons n d t ps, e, σ, s, rs, vs, hi, hc, hr => by
    cases vs with
    | nil => simp only [bind]; trivial
    | cons v vs =>
      cases rs with
      | nil => exact hr.elim
      | cons r rs =>
        simp only [bind, Params.bind, hc.L, hc.fine]
        refine Sim.bind (default_sim hi hr.1 (opt_sim ok d hi hc)) fun e1 σ1 s1 x y l1 hi h => ?_
        refine Sim.bind (check_sim ok hi h (opt_sim ok t hi (hc.le l1))) fun e2 σ2 s2 _ _ l2 hi _ => ?_
        refine Sim.bind (simG_setVar ok hi ((hc.le l1).le l2).scope n (h.le l2)) fun e3 σ3 s3 _ _ l3 hi _ => ?_
        exact bind_sim ok ps hi (((hc.le l1).le l2).le l3) (Rep.all (Rep.all (Rep.all hr.2 l1) l2) l3)
theorem opt_sim (ok : S.Ok) : ∀ (x : OExpr) {e : Emb} {σ : Store} {s : SSt World}, Inv S e σ s → CtxRel S e s c c' →
    match x.eval c, opt c' x with
      | none, none => True
      | some d, some d' => Sim S [] e s Rep (d s) (d' σ)
      | _, _ => False
  | .no, e, σ, s, hi, hc => by
    simp only [OExpr.eval, opt]
  | .yes x, e, σ, s, hi, hc => by
    simp only [OExpr.eval, opt]
    exact expr_sim ok x hi hc
theorem stmt_sim (ok : S.Ok) : ∀ (x : Stmt) {e : Emb} {σ : Store} {s : SSt World}, Inv S e σ s → CtxRel S e s c c' →
    Sim S [] e s CtlRel (x.eval c s) (stmt c' x σ)
  | .expr x, e, σ, s, hi, hc => by
    simp only [Stmt.eval, stmt]
    refine Sim.bind (expr_sim ok x hi hc) fun e1 σ1 s1 r v l1 hi h => ?_
    exact Sim.pure hi trivial
  | .ifElse x t f, e, σ, s, hi, hc => by
    simp only [Stmt.eval, stmt, hc.L]
    refine Sim.bind (expr_sim ok x hi hc) fun e1 σ1 s1 r v l1 hi h => ?_
    refine Sim.bind (sim_truth hi h) fun e2 σ2 s2 p p' l2 hi hp => ?_
    subst hp
    cases p with
    | true => exact stmt_sim ok t hi ((hc.le l1).le l2)
    | false => exact stmt_sim ok f hi ((hc.le l1).le l2)
  | .ifOnly x t, e, σ, s, hi, hc => by
    simp only [Stmt.eval, stmt, hc.L]
    refine Sim.bind (expr_sim ok x hi hc) fun e1 σ1 s1 r v l1 hi h => ?_
    refine Sim.bind (sim_truth hi h) fun e2 σ2 s2 p p' l2 hi hp => ?_
    subst hp
    cases p with
    | true => exact stmt_sim ok t hi ((hc.le l1).le l2)
    | false => exact Sim.pure hi trivial
  | .while x b, e, σ, s, hi, hc => by
    simp only [Stmt.eval, stmt, hc.L]
    rw [hc.fuel]
    refine while_sim (c := c) (c' := c') (fun hi hc => ?_) (fun hi hc => stmt_sim ok b hi hc) _ hi hc
    exact Sim.bind (expr_sim ok x hi hc) fun e1 σ1 s1 r v l1 hi h => sim_truth hi h
  | .doWhile b x, e, σ, s, hi, hc => by
    simp only [Stmt.eval, stmt, hc.L]
    rw [hc.fuel]
    refine do_sim (c := c) (c' := c') (fun hi hc => ?_) (fun hi hc => stmt_sim ok b hi hc) _ hi hc
    exact Sim.bind (expr_sim ok x hi hc) fun e1 σ1 s1 r v l1 hi h => sim_truth hi h
  | .comp ss, e, σ, s, hi, hc => by
    simp only [Stmt.eval, stmt]
    exact stmts_sim ok ss hi hc
  | .ret es, e, σ, s, hi, hc => by
    simp only [Stmt.eval, stmt]
    refine Sim.bind (exprs_sim ok es hi hc) fun e1 σ1 s1 r v l1 hi h => ?_
    exact Sim.pure hi h
  | .func n f, e, σ, s, hi, hc => by
    simp only [Stmt.eval, stmt, hc.L, hc.fine]
    have hf := Sim.bind (b := fun σ => .ok σ (.fn f (c'.scope :: c'.chain)))
      (f := fun r => lift (LG S) ((LG S).setVar c.locals n r) >>= fun _ => (Pure.pure .normal : M World VM.Ctl))
      (g := fun v => writeVar S.fine c'.scope n v >>= fun _ => (Pure.pure .normal : B Ctl)) (Q' := CtlRel)
      (sim_func ok hi hc f) fun e1 σ1 s1 r v l1 hi h =>
        Sim.bind (simG_setVar ok hi (hc.le l1).scope n h) fun e2 σ2 s2 _ _ l2 hi _ => Sim.pure hi trivial
    exact assoc_sim hf
  | .brk, e, σ, s, hi, hc => by
    simp only [Stmt.eval, stmt]
    exact Sim.pure hi trivial
theorem stmts_sim (ok : S.Ok) : ∀ (x : Stmts) {e : Emb} {σ : Store} {s : SSt World}, Inv S e σ s → CtxRel S e s c c' →
    Sim S [] e s CtlRel (x.eval c s) (stmts c' x σ)
  | .nil, e, σ, s, hi, hc => by
    simp only [Stmts.eval, stmts]
    exact Sim.pure hi trivial
  | .cons x xs, e, σ, s, hi, hc => by
    simp only [Stmts.eval, stmts]
    refine Sim.bind (stmt_sim ok x hi hc) fun e1 σ1 s1 r v l1 hi h => ?_
    cases r <;> cases v <;> first | exact h.elim | skip
    · exact stmts_sim ok xs hi (hc.le l1)
    · exact Sim.pure hi trivial
    · exact Sim.pure hi h
end
end

/-! ## Calls and programs -/

section
variable [Floats] {S : Setup} {e : Emb} {σ : Store} {s : SSt World}

omit [Floats] in
theorem fit_rep (n : Nat) {rs : List Ref} {vs : List Val} (h : All2 (Rep e s) rs vs) :
    All2 (Rep e s) ((LG S).fit n rs) (fit n vs) := by
  unfold Layer.fit fit
  rw [h.length]
  exact (h.take n).append (All2.replicate (rep_none e s) _)

omit [Floats] in
theorem results_sim (hi : Inv S e σ s) (k : Nat) {rs : List Ref} {vs : List Val} (h : All2 (Rep e s) rs vs) :
    Sim S [] e s (fun e s => All2 (Rep e s)) (VM.results (LG S) k rs s) (results k vs σ) := by
  unfold VM.results results
  rw [h.length]
  by_cases h8 : 8 < min vs.length k
  · rw [if_pos h8, if_pos h8]; trivial
  · rw [if_neg h8, if_neg h8]
    have := fit_rep (S := S) k h
    unfold Layer.fit at this
    rw [h.length] at this
    exact Sim.pure hi this

theorem run_sim (ok : S.Ok) {c : VM.Ctx World} {c' : Ctx} (hi : Inv S e σ s) (hc : CtxRel S e s c c') (f : FunDef)
    {rs : List Ref} {vs : List Val} (h : All2 (Rep e s) rs vs) :
    Sim S [] e s (fun e s => All2 (Rep e s)) (f.run c rs s) (runFun c' f vs σ) := by
  cases f with
  | mk ps b =>
    unfold FunDef.run runFun
    refine Sim.bind (bind_sim ok ps hi hc h.reverse) fun e1 σ1 s1 _ _ l1 hi _ => ?_
    refine Sim.bind (stmt_sim ok b hi (hc.le l1)) fun e2 σ2 s2 x y l2 hi h => ?_
    cases x <;> cases y <;> first | exact h.elim | skip
    · exact Sim.pure hi trivial
    · trivial
    · exact Sim.pure hi h

omit [Floats] in
theorem callee_no {r : Ref} {o : Obj} (ho : s.w.heap[r]? = some o) (hf : o ≠ .opaque .func) (hn : o ≠ .opaque .nfunc) :
    calleeOf r s.w = .ok s.w .no := by
  unfold calleeOf
  rw [ho]
  cases o with
  | «opaque» k => cases k <;> first | rfl | exact absurd rfl hf | exact absurd rfl hn
  | _ => rfl

omit [Floats] in
theorem Looks.not_fun {o : Obj} {v : Val} (h : Looks σ o v) (hf : ∀ f c, v ≠ .fn f c) (hp : ∀ p, v ≠ .prim p) :
    o ≠ .opaque .func ∧ o ≠ .opaque .nfunc := by
  cases v with
  | fn f c => exact absurd rfl (hf f c)
  | prim p => exact absurd rfl (hp p)
  | ref a => rcases h with ⟨_, _, rfl, _⟩ | ⟨_, _, rfl, _⟩ | ⟨_, _, rfl, _⟩ | ⟨_, rfl, _⟩ <;> exact ⟨nofun, nofun⟩
  | str t => rw [h.1]; exact ⟨nofun, nofun⟩
  | type t => rcases TyLooks.cases h with ⟨_, rfl⟩ | rfl | ⟨_, _, rfl⟩ | ⟨_, rfl⟩ <;> exact ⟨nofun, nofun⟩
  | _ => rw [show o = _ from h]; exact ⟨nofun, nofun⟩

theorem callN_sim (ok : S.Ok) : ∀ n, CallSim S (VM.callN (LG S) n) (callN S.fine S.lib n)
  | 0 => fun e σ s r v rs vs k hi hr hs => rfl
  | n + 1 => fun e σ s r v rs vs k hi hr hs => by
    unfold VM.callN
    have no : calleeOf r s.w = .ok s.w .no → Sim S [] e s (fun e s => All2 (Rep e s))
        ((lift (LG S) ((LG S).callee r) >>= fun c =>
          match c with
          | .no => fail
          | .noja clo => do
            let fd ← findFun r
            match fd with
            | none => undef
            | some fd => do
              let scope ← lift (LG S) (LG S).newScope
              let vs ← fd.run ⟨LG S, n, VM.callN (LG S) n, scope, some clo⟩ ((LG S).fit fd.params.count rs)
              VM.results (LG S) k vs
          | .native id argc => do
            let r ← lift (LG S) ((LG S).native id ((LG S).adapt argc rs))
            match r with
            | .done vs => VM.results (LG S) k vs
            | .load p =>
              if p.wf false then do
                let scope ← lift (LG S) (LG S).newScope
                let vs ← p.run ⟨LG S, n, VM.callN (LG S) n, scope, none⟩
                VM.results (LG S) k vs
              else offM : M World (List Ref)) s) (.err σ.out) := by
      intro h
      refine Sim.after (s1 := s) (a := Callee.no) ?_ (lift_ok (f := (LG S).callee r) h hi.err)
      exact Sim.stop hi ⟨s.w, rfl, rfl⟩
    obtain ⟨o, ho, hl⟩ := hr.looks hi
    cases v with
    | fn f chain =>
      obtain ⟨h1, h2, clo, crs, h3, h4, h5⟩ := hr
      have hcal : calleeOf r s.w = .ok s.w (.noja clo) := by
        unfold calleeOf
        rw [h1]
        dsimp only
        rw [h3]
      have hlow : S.N ≤ s.w.heap.length := by
        cases crs with
        | nil => cases h4
        | cons x xs =>
          cases chain with
          | nil => exact h5.elim
          | cons a as =>
            have := hi.low _ (List.mem_of_getElem? h5.1)
            exact Nat.le_of_lt (Nat.lt_of_le_of_lt this.1 this.2)
      unfold callN
      refine Sim.after (s1 := s) (a := Callee.noja clo) ?_ (lift_ok (f := (LG S).callee r) hcal hi.err)
      refine Sim.after (s1 := s) (a := some f) ?_ (by unfold findFun; rw [h2])
      refine Sim.bind (sim_scope ok hi hlow) fun e1 σ1 s1 x a l1 hi h => ?_
      have hc : CtxRel S e1 s1 ⟨LG S, n, VM.callN (LG S) n, x, some clo⟩ ⟨n, callN S.fine S.lib n, a, chain, S.lib, S.fine⟩ :=
        ⟨rfl, rfl, callN_sim ok n, h, ⟨crs, Chain.le h4 l1, h5.imp fun _ _ h => h.le l1⟩, rfl, rfl⟩
      refine Sim.bind (run_sim ok hi hc f (fit_rep _ (Rep.all hs l1))) fun e2 σ2 s2 x y l2 hi h => ?_
      exact results_sim hi k h
    | prim p =>
      have hcal : calleeOf r s.w = .ok s.w (.native p.id p.argc) := by
        unfold calleeOf
        rw [hr.1]
        dsimp only
        rw [hr.2]
      unfold callN
      refine Sim.after (s1 := s) (a := Callee.native p.id p.argc) ?_ (lift_ok (f := (LG S).callee r) hcal hi.err)
      have hargs : All2 (Rep e s) ((LG S).adapt p.argc rs) (match p.argc with | none => vs | some m => fit m vs) := by
        cases p.argc with
        | none => exact hs
        | some m => exact fit_rep m hs
      refine Sim.bind (simG_native ok hi p hargs) fun e1 σ1 s1 x y l1 hi h => ?_
      obtain ⟨rs', rfl, h⟩ := h
      exact results_sim hi k h
    | _ =>
      obtain ⟨hf, hn⟩ := hl.not_fun nofun nofun
      exact no (callee_no ho hf hn)

/-- What the results of a program are: those it returns, or its variables. -/
def Final (e : Emb) (s : SSt World) (rs : List Ref) : Option (List Val) → Prop
  | some vs => All2 (Rep e s) rs vs
  | none => ∃ r, rs = [r]

theorem mean_sim (ok : S.Ok) (fuel : Nat) (p : Stmts) (hi : Inv S e σ s) :
    Sim S [] e s Final (p.mean (LG S) fuel s) (mean S.fine S.lib fuel p σ) := by
  unfold Stmts.mean mean
  refine Sim.bind (sim_scope ok hi hi.base) fun e1 σ1 s1 x a l1 hi h => ?_
  have hc : CtxRel S e1 s1 ⟨LG S, fuel, VM.callN (LG S) fuel, x, none⟩ ⟨fuel, callN S.fine S.lib fuel, a, [], S.lib, S.fine⟩ :=
    ⟨rfl, rfl, callN_sim ok fuel, h, ⟨[], rfl, trivial⟩, rfl, rfl⟩
  unfold Stmts.run program
  refine Sim.bind (stmts_sim ok p hi hc) fun e2 σ2 s2 x y l2 hi h' => ?_
  cases x <;> cases y <;> first | exact h'.elim | skip
  · exact Sim.pure hi ⟨_, rfl⟩
  · trivial
  · exact Sim.pure (Q := Final) hi h'

end

end Noja.VM.Book
