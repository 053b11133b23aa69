import Verif.VM.Natives

/-!
# Reasoning about programs

Rules to derive what a program does on the objects of `Verif.VM.Objects`: the variables of a
function as a list of names and values, facts about objects that stay true, and one rule per
construct of the language.
-/

set_option linter.unusedVariables false
set_option linter.unusedSimpArgs false

namespace Noja.VM

open Noja.Graph (Obj Kind Heap)

variable {α β : Type}

/-! ## Computations that return -/

/-- The computation returns, and then `Q` holds. -/
def wp (m : M World α) (Q : α → SSt World → Prop) (s : SSt World) : Prop :=
  ∃ s' a, m s = .ok s' a ∧ Q a s'

def Returns (Q : α → SSt World → Prop) (x : Res World α) : Prop := ∃ s' a, x = .ok s' a ∧ Q a s'

theorem wp_pure {a : α} {Q : α → SSt World → Prop} {s : SSt World} (h : Q a s) : wp (pure a) Q s :=
  ⟨s, a, rfl, h⟩

theorem wp_bind {m : M World α} {f : α → M World β} {Q : β → SSt World → Prop} {s : SSt World}
    (h : wp m (fun a s' => wp (f a) Q s') s) : wp (m >>= f) Q s := by
  obtain ⟨s1, a, h1, s2, b, h2, hq⟩ := h
  refine ⟨s2, b, ?_, hq⟩
  show M.bind m f s = _
  unfold M.bind
  rw [h1]
  exact h2

theorem wp_mono {m : M World α} {Q R : α → SSt World → Prop} {s : SSt World} (h : wp m Q s)
    (hi : ∀ a s', Q a s' → R a s') : wp m R s := by
  obtain ⟨s1, a, h1, hq⟩ := h
  exact ⟨s1, a, h1, hi _ _ hq⟩

theorem wp_lift {L : Layer World} {f : World → Out World α} {Q : α → SSt World → Prop} {s : SSt World} {w : World}
    {a : α} (hf : f s.w = .ok w a) (hp : L.pending w = false) (h : Q a ⟨w, s.funs⟩) : wp (lift L f) Q s := by
  refine ⟨⟨w, s.funs⟩, a, ?_, h⟩
  unfold lift
  rw [hf]
  dsimp only
  rw [if_neg (by rw [hp]; simp)]

/-- After a part that returns, the rest decides. -/
theorem then_bind {m : M World α} {f : α → M World β} {s : SSt World} {P : Res World β → Prop}
    (h : wp m (fun a s' => P (f a s')) s) : P ((m >>= f) s) := by
  obtain ⟨s1, a, h1, hq⟩ := h
  show P (M.bind m f s)
  unfold M.bind
  rw [h1]
  exact hq

theorem ub_bind {m : M World α} {f : α → M World β} {s : SSt World} (h : m s = .ub) : (m >>= f) s = .ub := by
  show M.bind m f s = _
  unfold M.bind
  rw [h]

/-- The computation reports an error. -/
def Errs (r : Res World α) : Prop := ∃ w, r = .err w

theorem err_bind {m : M World α} {f : α → M World β} {s : SSt World} (h : Errs (m s)) : Errs ((m >>= f) s) := by
  obtain ⟨w, h⟩ := h
  refine ⟨w, ?_⟩
  show M.bind m f s = _
  unfold M.bind
  rw [h]

/-! ## What a computation leaves alone -/

/-- From `s` to `s'` only maps among `D` have changed; there may be new objects. -/
structure Ext (D : List Ref) (s s' : SSt World) : Prop where
  len : s.w.heap.length ≤ s'.w.heap.length
  heap : ∀ x, x < s.w.heap.length → x ∉ D → s'.w.heap[x]? = s.w.heap[x]?
  dmap : ∀ x ∈ D, x < s.w.heap.length → ∃ es, s.w.heap[x]? = some (.map es)
  clos : ∀ x, x < s.w.heap.length → s'.w.clos x = s.w.clos x
  fclo : ∀ x, x < s.w.heap.length → s'.w.fclo x = s.w.fclo x
  nat : ∀ x, x < s.w.heap.length → s'.w.nat x = s.w.nat x
  tab : ∀ x, x < s.w.heap.length → s'.w.tab x = s.w.tab x
  funs : ∀ x, x < s.w.heap.length → s'.funs x = s.funs x
  out : s'.w.out = s.w.out

theorem Ext.refl (s : SSt World) : Ext [] s s :=
  ⟨Nat.le_refl _, fun _ _ _ => rfl, nofun, fun _ _ => rfl, fun _ _ => rfl, fun _ _ => rfl,
    fun _ _ => rfl, fun _ _ => rfl, rfl⟩

theorem Ext.trans {D E : List Ref} {s t u : SSt World} (h : Ext D s t) (k : Ext E t u)
    (hE : ∀ x ∈ E, x < s.w.heap.length → x ∈ D) : Ext D s u where
  len := Nat.le_trans h.len k.len
  heap x hx hd := by
    rw [k.heap x (Nat.lt_of_lt_of_le hx h.len) (fun he => hd (hE x he hx)), h.heap x hx hd]
  dmap := h.dmap
  clos x hx := by rw [k.clos x (Nat.lt_of_lt_of_le hx h.len), h.clos x hx]
  fclo x hx := by rw [k.fclo x (Nat.lt_of_lt_of_le hx h.len), h.fclo x hx]
  nat x hx := by rw [k.nat x (Nat.lt_of_lt_of_le hx h.len), h.nat x hx]
  tab x hx := by rw [k.tab x (Nat.lt_of_lt_of_le hx h.len), h.tab x hx]
  funs x hx := by rw [k.funs x (Nat.lt_of_lt_of_le hx h.len), h.funs x hx]
  out := by rw [k.out, h.out]

theorem get_lt {h : Heap} {r : Nat} {o : Obj} (e : h[r]? = some o) : r < h.length :=
  (List.getElem?_eq_some_iff.1 e).1

/-- Objects that are not maps stay what they are. -/
theorem Ext.obj {D : List Ref} {s s' : SSt World} (h : Ext D s s') {r : Ref} {o : Obj}
    (hr : s.w.heap[r]? = some o) (ho : o.kind ≠ .map) : s'.w.heap[r]? = some o := by
  rw [h.heap r (get_lt hr)]
  · exact hr
  · intro hd
    obtain ⟨es, he⟩ := h.dmap r hd (get_lt hr)
    rw [hr] at he
    cases he
    exact ho rfl

theorem Ext.name {D : List Ref} {s s' : SSt World} (h : Ext D s s') {k : Ref} {n : List UInt8}
    (hk : IsName s.w.heap k n) : IsName s'.w.heap k n := by
  obtain ⟨t, src, len, a, b⟩ := hk
  exact ⟨t, src, len, h.obj a nofun, b⟩

theorem Ext.keys {D : List Ref} {s s' : SSt World} (h : Ext D s s') {es : List (Nat × Nat)}
    (hk : NameKeys s.w.heap es) : NameKeys s'.w.heap es :=
  fun e he => (hk e he).imp fun m hm => h.name hm

theorem Ext.scopes {D : List Ref} {s s' : SSt World} (h : Ext D s s') {r : Ref} {rs : List Ref}
    (hs : Scopes s.w r rs) (hd : ∀ x ∈ rs, x ∉ D) : Scopes s'.w r rs := by
  induction hs with
  | map hr hk => exact .map (by rw [h.heap _ (get_lt hr) (hd _ (by simp))]; exact hr) (h.keys hk)
  | smap hr => exact .smap (h.obj hr (by decide))
  | last hc hcl hv _ ih =>
    exact .last (h.obj hc (by decide)) (by rw [h.clos _ (get_lt hc)]; exact hcl) hv (ih hd)
  | more hc hcl hv hp _ _ ih ih' =>
    exact .more (h.obj hc (by decide)) (by rw [h.clos _ (get_lt hc)]; exact hcl) hv hp
      (ih fun x hx => hd x (List.mem_append_left _ hx)) (ih' fun x hx => hd x (List.mem_append_right _ hx))

theorem Ext.oscopes {D : List Ref} {s s' : SSt World} (h : Ext D s s') {r : Option Ref} {rs : List Ref}
    (hs : OScopes s.w r rs) (hd : ∀ x ∈ rs, x ∉ D) : OScopes s'.w r rs := by
  cases r with
  | none => exact hs
  | some r => exact h.scopes hs hd

/-! ## Variables -/

abbrev Env := List (Name × Ref)

/-- The map `l` has exactly these variables. -/
def Vars (w : World) (l : Ref) (env : Env) : Prop :=
  ∃ es, w.heap[l]? = some (.map es) ∧ NameKeys w.heap es ∧
    ∀ n, (es.find? fun e => decide (textOf w.heap e.1 = some n)).map (·.2) = env.lookup n

theorem find_keys {h h' : Heap} {n : Name} : ∀ {es : List (Nat × Nat)}, NameKeys h es →
    (∀ k m, IsName h k m → IsName h' k m) →
    (es.find? fun e => decide (textOf h' e.1 = some n)) = es.find? fun e => decide (textOf h e.1 = some n)
  | [], _, _ => rfl
  | e :: es, hk, hi => by
    obtain ⟨m, hm⟩ := hk e (by simp)
    have ih := find_keys (h := h) (h' := h') (n := n) (es := es) (fun e he => hk e (List.mem_cons_of_mem _ he)) hi
    rw [List.find?_cons, List.find?_cons, hm.textOf, (hi _ _ hm).textOf, ih]

theorem Vars.ext {D : List Ref} {s s' : SSt World} {l : Ref} {env : Env} (hv : Vars s.w l env) (h : Ext D s s')
    (hl : l ∉ D) : Vars s'.w l env := by
  obtain ⟨es, a, b, c⟩ := hv
  refine ⟨es, ?_, h.keys b, fun n => ?_⟩
  · rw [h.heap _ (get_lt a) hl]; exact a
  · rw [find_keys b fun k m hm => h.name hm]; exact c n

theorem Vars.lt {w : World} {l : Ref} {env : Env} (hv : Vars w l env) : l < w.heap.length := by
  obtain ⟨es, a, b, c⟩ := hv
  exact get_lt a

theorem Vars.scopes {w : World} {l : Ref} {env : Env} (hv : Vars w l env) : Scopes w l [l] := by
  obtain ⟨es, a, b, c⟩ := hv
  exact .map a b

theorem Vars.bound {C : Config} {w : World} {l : Ref} {env : Env} (hv : Vars w l env) (n : Name) :
    bound C w n l = (env.lookup n).map fun v w => .ok w v := by
  obtain ⟨es, a, b, c⟩ := hv
  rw [bound_map a, c n]

/-- The entries of a map whose keys are names. -/
def Match (h : Heap) : List (Nat × Nat) → Env → Prop
  | [], [] => True
  | e :: es, f :: fs => IsName h e.1 f.1 ∧ e.2 = f.2 ∧ Match h es fs
  | _, _ => False

/-- The map `x` has exactly these entries, in this order. -/
def Rec (w : World) (x : Ref) (fs : Env) : Prop := ∃ es, w.heap[x]? = some (.map es) ∧ Match w.heap es fs

theorem Match.imp {h h' : Heap} (hi : ∀ k m, IsName h k m → IsName h' k m) : ∀ {es : List (Nat × Nat)} {fs : Env},
    Match h es fs → Match h' es fs
  | [], [], _ => trivial
  | [], _ :: _, m => m.elim
  | _ :: _, [], m => m.elim
  | _ :: _, _ :: _, ⟨a, b, c⟩ => ⟨hi _ _ a, b, c.imp hi⟩

theorem Rec.ext {D : List Ref} {s s' : SSt World} {x : Ref} {fs : Env} (hv : Rec s.w x fs) (h : Ext D s s')
    (hl : x ∉ D) : Rec s'.w x fs := by
  obtain ⟨es, a, b⟩ := hv
  exact ⟨es, by rw [h.heap _ (get_lt a) hl]; exact a, b.imp fun k m hm => h.name hm⟩

theorem Rec.lt {w : World} {x : Ref} {fs : Env} (hv : Rec w x fs) : x < w.heap.length := by
  obtain ⟨es, a, b⟩ := hv
  exact get_lt a

/-- Facts about objects other than maps. -/
def Knows (s : SSt World) (K : List (Ref × Obj)) : Prop := ∀ p ∈ K, p.2.kind ≠ .map ∧ s.w.heap[p.1]? = some p.2

theorem Knows.ext {D : List Ref} {s s' : SSt World} {K : List (Ref × Obj)} (hk : Knows s K) (h : Ext D s s') :
    Knows s' K := fun p hp => ⟨(hk p hp).1, h.obj (hk p hp).2 (hk p hp).1⟩

/-! ## The builtins -/

/-- What programs find around them: the scope `V` of the functions of `start.noja`, and the builtins,
which are the map `M` and the table `T`. -/
structure GEnv where
  V : Ref
  M : Ref
  T : Ref
  venv : Env
  menv : Env
  /-- function objects made in the scope `V` -/
  funcs : List (Ref × FunDef)
  nats : List (Ref × Nat × Option Nat)
  objs : List (Ref × Obj)
  /-- maps that are known, besides -/
  recs : List (Ref × Env) := []
  /-- objects that are known, whatever they are -/
  old : Heap := []

structure Globals (B : Config) (G : GEnv) (s : SSt World) : Prop where
  err : s.w.err = false
  vars : Vars s.w G.V G.venv
  mods : Vars s.w G.M G.menv
  tabo : s.w.heap[G.T]? = some (.opaque .smap)
  tabt : s.w.tab G.T = 0
  bins : ∃ b, B.builtins = some b ∧ Scopes s.w b [G.M, G.T]
  funcs : ∀ p ∈ G.funcs, s.w.heap[p.1]? = some (.opaque .func) ∧ s.funs p.1 = some p.2 ∧
    ∃ c, s.w.fclo p.1 = some c ∧ Scopes s.w c [G.V]
  nats : ∀ p ∈ G.nats, s.w.heap[p.1]? = some (.opaque .nfunc) ∧ s.w.nat p.1 = some p.2
  objs : Knows s G.objs
  recs : ∀ p ∈ G.recs, Rec s.w p.1 p.2
  old : ∀ x, x < G.old.length → s.w.heap[x]? = G.old[x]?

theorem Globals.old_le {B : Config} {G : GEnv} {s : SSt World} (g : Globals B G s) : G.old.length ≤ s.w.heap.length := by
  refine Nat.le_of_not_lt fun h => ?_
  have := g.old _ h
  rw [List.getElem?_eq_none (Nat.le_refl _)] at this
  exact absurd h (Nat.not_lt_of_le (List.getElem?_eq_none_iff.1 this.symm))

theorem Globals.ext {B : Config} {G : GEnv} {D : List Ref} {s s' : SSt World} (g : Globals B G s) (h : Ext D s s')
    (hV : G.V ∉ D) (hM : G.M ∉ D) (he : s'.w.err = false) (hR : ∀ p ∈ G.recs, p.1 ∉ D := by simp)
    (hO : ∀ x ∈ D, G.old.length ≤ x := by simp) : Globals B G s' where
  err := he
  vars := g.vars.ext h hV
  mods := g.mods.ext h hM
  tabo := h.obj g.tabo (by decide)
  tabt := by rw [h.tab _ (get_lt g.tabo)]; exact g.tabt
  bins := by
    obtain ⟨b, e, hb⟩ := g.bins
    refine ⟨b, e, h.scopes hb fun x hx => ?_⟩
    simp only [List.mem_cons, List.not_mem_nil, or_false] at hx
    rcases hx with rfl | rfl
    · exact hM
    · intro hd
      obtain ⟨es, he⟩ := h.dmap _ hd (get_lt g.tabo)
      rw [g.tabo] at he
      cases he
  funcs p hp := by
    obtain ⟨a, b, c, d, e⟩ := g.funcs p hp
    refine ⟨h.obj a (by decide), by rw [h.funs _ (get_lt a)]; exact b, c, by rw [h.fclo _ (get_lt a)]; exact d,
      h.scopes e fun x hx => ?_⟩
    rw [List.mem_singleton.1 hx]
    exact hV
  nats p hp := by
    obtain ⟨a, b⟩ := g.nats p hp
    exact ⟨h.obj a (by decide), by rw [h.nat _ (get_lt a)]; exact b⟩
  objs := g.objs.ext h
  recs p hp := (g.recs p hp).ext h (hR p hp)
  old x hx := by rw [h.heap x (Nat.lt_of_lt_of_le hx g.old_le) fun hd => absurd (hO x hd) (Nat.not_le_of_lt hx)]; exact g.old x hx

/-! ## Where execution stands -/

/-- Execution in the function call `c`, entered in the state `s0`, is in the state `s`.  The
variables are `env`, those of the enclosing functions `outer`; `K` is known about objects; of the
objects of `s0`, only `D` may have changed. -/
structure Sit (B : Config) (G : GEnv) (m : Nat) (outer : List (Ref × Env)) (D : List Ref) (c : Ctx World)
    (s0 s : SSt World) (env : Env) (K : List (Ref × Obj)) : Prop where
  L : c.L = objects (std B)
  fuel : c.fuel = m
  call : c.call = callN (objects (std B)) m
  glob : Globals B G s
  fresh : s0.w.heap.length ≤ c.locals
  ext : Ext (c.locals :: D) s0 s
  disj : ∀ x, x ∈ c.locals :: D → x ≠ G.V ∧ x ≠ G.M ∧ ∀ p ∈ outer, x ≠ p.1
  locals : c.locals ∉ D
  recs : (∀ p ∈ G.recs, p.1 ≠ c.locals) ∧ G.old.length ≤ c.locals
  vars : Vars s.w c.locals env
  clo : OScopes s.w c.closure (outer.map (·.1))
  outs : ∀ p ∈ outer, Vars s.w p.1 p.2
  know : Knows s K

/-- What holds of the configuration: maps find what is in them (they may not, see
`Verif.VM.ScopeLost`), and the builtins that are not modelled report no error without failing. -/
structure Conf (B : Config) : Prop where
  fuel : 2 < B.fuel
  hit : ∀ k k', B.hit k k' = true
  quiet : ∀ n, Quiet B n

theorem Conf.reach {B : Config} (h : Conf B) (hp : Heap) : Reaches B.hit hp := fun k k' _ _ _ => h.hit k k'

variable {B : Config} {G : GEnv} {m : Nat} {outer : List (Ref × Env)} {D : List Ref} {c : Ctx World}
  {s0 s : SSt World} {env : Env} {K : List (Ref × Obj)}

/-- The rest of the function goes on after something that changed at most `E`. -/
theorem Sit.after (h : Sit B G m outer D c s0 s env K) {E : List Ref} {s' : SSt World} (e : Ext E s s')
    (hE : ∀ x ∈ E, x ∈ D ∧ (∀ p ∈ G.recs, p.1 ≠ x) ∧ G.old.length ≤ x) (he : s'.w.err = false) :
    Sit B G m outer D c s0 s' env K := by
  have dis : ∀ x, x < s.w.heap.length → (x = G.V ∨ x = G.M ∨ (∃ p ∈ outer, x = p.1) ∨ x = c.locals) → x ∉ E := by
    intro x hx hc hE'
    have hd := (hE x hE').1
    obtain ⟨a, b, d⟩ := h.disj x (List.mem_cons_of_mem _ hd)
    rcases hc with hc | hc | ⟨p, hp, hc⟩ | hc
    · exact a hc
    · exact b hc
    · exact d p hp hc
    · exact h.locals (hc ▸ hd)
  refine
    { L := h.L, fuel := h.fuel, call := h.call
      glob := h.glob.ext e (dis _ h.glob.vars.lt (.inl rfl)) (dis _ h.glob.mods.lt (.inr (.inl rfl))) he
        (fun p hp hx => (hE _ hx).2.1 p hp rfl) fun x hx => (hE x hx).2.2
      fresh := h.fresh
      ext := h.ext.trans e fun x hx hl => List.mem_cons_of_mem _ (hE x hx).1
      disj := h.disj, locals := h.locals, recs := h.recs
      vars := h.vars.ext e (dis _ h.vars.lt (.inr (.inr (.inr rfl))))
      clo := ?_
      outs := fun p hp => (h.outs p hp).ext e (dis _ (h.outs p hp).lt (.inr (.inr (.inl ⟨p, hp, rfl⟩))))
      know := h.know.ext e }
  refine e.oscopes h.clo fun x hx => ?_
  obtain ⟨p, hp, rfl⟩ := List.mem_map.1 hx
  exact dis _ (h.outs p hp).lt (.inr (.inr (.inl ⟨p, hp, rfl⟩)))

theorem Sit.learn (h : Sit B G m outer D c s0 s env K) {r : Ref} {o : Obj} (ho : o.kind ≠ .map)
    (hr : s.w.heap[r]? = some o) : Sit B G m outer D c s0 s env ((r, o) :: K) :=
  { h with
    know := fun p hp => by
      rcases List.mem_cons.1 hp with rfl | hp
      · exact ⟨ho, hr⟩
      · exact h.know p hp }

theorem Sit.obj (h : Sit B G m outer D c s0 s env K) {r : Ref} {o : Obj} (hk : (r, o) ∈ K) : s.w.heap[r]? = some o :=
  (h.know _ hk).2

theorem Sit.gobj (h : Sit B G m outer D c s0 s env K) {r : Ref} {o : Obj} (hk : (r, o) ∈ G.objs) :
    s.w.heap[r]? = some o := (h.glob.objs _ hk).2

/-- When the function has returned, its variables are no longer a change. -/
theorem Sit.done (h : Sit B G m outer D c s0 s env K) : Ext D s0 s :=
  { h.ext with
    heap := fun x hx hd => h.ext.heap x hx (by
      intro hm
      rcases List.mem_cons.1 hm with rfl | hm
      · exact absurd h.fresh (Nat.not_le_of_lt hx)
      · exact hd hm)
    dmap := fun x hx => h.ext.dmap x (List.mem_cons_of_mem _ hx) }

/-! ### Making objects -/

theorem Ext.alloc (s : SSt World) (o : Obj) : Ext [] s ⟨(s.w.alloc o).1, s.funs⟩ where
  len := by show _ ≤ (s.w.alloc o).1.heap.length; rw [alloc_heap]; simp
  heap x hx _ := by
    show (s.w.alloc o).1.heap[x]? = _
    rw [alloc_heap, List.getElem?_append_left hx]
  dmap := nofun
  clos _ _ := rfl
  fclo _ _ := rfl
  nat _ _ := rfl
  tab _ _ := rfl
  funs _ _ := rfl
  out := rfl

theorem alloc_get (w : World) (o : Obj) : (w.alloc o).1.heap[(w.alloc o).2]? = some o := by
  rw [alloc_heap]
  show (w.heap ++ [o])[w.heap.length]? = _
  simp

theorem Sit.alloc (h : Sit B G m outer D c s0 s env K) {o : Obj} (ho : o.kind ≠ .map) :
    Sit B G m outer D c s0 ⟨(s.w.alloc o).1, s.funs⟩ env (((s.w.alloc o).2, o) :: K) :=
  (h.after (.alloc s o) nofun h.glob.err).learn ho (alloc_get _ _)

theorem wp_mk (h : Sit B G m outer D c s0 s env K) {o : Obj} (ho : o.kind ≠ .map) {f : World → Out World Ref}
    (hf : f s.w = mk s.w o) {Q : Ref → SSt World → Prop}
    (hq : ∀ r s', Sit B G m outer D c s0 s' env ((r, o) :: K) → Q r s') : wp (lift c.L f) Q s :=
  wp_lift hf (by rw [h.L]; exact h.glob.err) (hq _ _ (h.alloc ho))

/-! ### Names -/

/-- A name that can be looked up: ASCII without NUL. -/
def good (n : Name) : Bool := n.all fun b => decide (0 < b.toNat ∧ b.toNat < 128)

theorem good_nul {n : Name} (h : good n = true) : (0 : UInt8) ∉ n := by
  intro h0
  have := List.all_eq_true.1 h 0 h0
  simp at this

/-- The string object made of these characters. -/
def ascii (n : List UInt8) : Str.Str := Str.mk (n.map fun b => [b])

theorem good_units {n : Name} (h : good n = true) : Utf8.Units (n.map fun b => [b]) :=
  Utf8.units_singletons _ (by
    intro b hb
    have := List.all_eq_true.1 h b hb
    simp at this
    exact this.2)

theorem good_cstring {n : Name} (h : good n = true) : cstring n = .ok (ascii n) := by
  unfold cstring Str.fromCString
  rw [cstrlen_nul n (good_nul h), Exec.bind_ok]
  have := Str.fromString_units (good_units h) [0]
  rw [Utf8.flatten_singletons] at this
  exact this

/-- What a name stands for, unless it is in the table of builtins. -/
def resolve (G : GEnv) (env : Env) (outer : List (Ref × Env)) (n : Name) : Option Ref :=
  match env.lookup n with
  | some v => some v
  | none =>
    match outer.findSome? fun p => p.2.lookup n with
    | some v => some v
    | none => G.menv.lookup n

theorem findSome_map {β γ : Type} {f : Ref → Option γ} {g : β → Option Ref} {e : Ref → γ} :
    ∀ {l : List (Ref × β)}, (∀ p ∈ l, f p.1 = (g p.2).map e) →
      (l.map (·.1)).findSome? f = (l.findSome? fun p => g p.2).map e
  | [], _ => rfl
  | p :: l, h => by
    have ih := findSome_map (l := l) fun q hq => h q (List.mem_cons_of_mem _ hq)
    rw [List.map_cons, List.findSome?_cons, List.findSome?_cons, h p (by simp), ih]
    cases g p.2 with
    | none => rfl
    | some v => rfl

theorem Sit.found (hB : Conf B) (h : Sit B G m outer D c s0 s env K) {n : Name} (hn : good n = true) :
    getVar (std B) c.locals c.closure n s.w =
      match (match resolve G env outer n with
        | some v => some fun w => Out.ok w v
        | none => stdSlot B 0 n) with
      | some value => value (s.w.alloc (.str (ascii n))).1
      | none => .err (s.w.alloc (.str (ascii n))).1 := by
  obtain ⟨b, hb, hbs⟩ := h.glob.bins
  have hob : OScopes s.w (std B).builtins [G.M, G.T] := by
    show OScopes s.w B.builtins _
    rw [hb]
    exact hbs
  have hoc := h.clo
  rw [C33_read_partial (std B) s.w n (ascii n) c.locals c.closure _ _ (good_cstring hn) (good_nul hn)
    (Nat.lt_trans (by decide) hB.fuel) h.glob.err (std_quiet hB.quiet n) (hB.reach _) h.vars.scopes hoc hob]
  have e1 := h.vars.bound (C := std B) n
  have e2 := h.glob.mods.bound (C := std B) n
  have e3 : bound (std B) s.w n G.T = stdSlot B 0 n := by
    unfold bound
    rw [h.glob.tabo]
    dsimp only
    rw [h.glob.tabt]
    rfl
  have e4 : (outer.map (·.1)).findSome? (bound (std B) s.w n) =
      (outer.findSome? fun p => p.2.lookup n).map fun v w => .ok w v :=
    findSome_map fun p hp => (h.outs p hp).bound n
  rw [List.cons_append, List.findSome?_cons, List.findSome?_append, e1, e4]
  simp only [List.findSome?_cons, List.findSome?_nil, e2, e3]
  unfold resolve
  cases env.lookup n with
  | some v => rfl
  | none =>
    cases outer.findSome? fun p => p.2.lookup n with
    | some v => rfl
    | none =>
      cases G.menv.lookup n with
      | some v => rfl
      | none =>
        simp only [Option.map_none, Option.none_or]
        cases stdSlot B 0 n with
        | some f => rfl
        | none => rfl

/-- Reading a variable. -/
theorem wp_var (hB : Conf B) (h : Sit B G m outer D c s0 s env K) {n : Name} {v : Ref}
    (hv : resolve G env outer n = some v) {Q : Ref → SSt World → Prop}
    (hq : ∀ s', Sit B G m outer D c s0 s' env K → Q v s') (hn : good n = true := by rfl) :
    wp ((Expr.ident n).eval c) Q s := by
  have e := h.found hB hn
  rw [hv] at e
  have h' := h.after (.alloc s (.str (ascii n))) nofun h.glob.err
  simp only [Expr.eval]
  rw [h.L]
  exact wp_lift (L := objects (std B)) e h.glob.err (hq _ h')

/-- Reading the name of a type. -/
theorem wp_type (hB : Conf B) (h : Sit B G m outer D c s0 s env K) {n : Name} {k : Kind}
    (hr : resolve G env outer n = none) (hv : basicTable.lookup n = some (.type k)) {Q : Ref → SSt World → Prop}
    (hq : ∀ s', Sit B G m outer D c s0 s' env K → Q (typeRef k) s') (hn : good n = true := by rfl) :
    wp ((Expr.ident n).eval c) Q s := by
  have e := h.found hB hn
  have e2 : stdSlot B 0 n = some (Item.value (.type k)) := by
    show (basicTable.lookup n).map Item.value = _
    rw [hv]
    rfl
  rw [hr] at e
  dsimp only at e
  rw [e2] at e
  have h' := h.after (.alloc s (.str (ascii n))) nofun h.glob.err
  simp only [Expr.eval]
  rw [h.L]
  exact wp_lift (L := objects (std B)) e h.glob.err (hq _ h')

theorem Ext.withNat (s : SSt World) (id : Nat) (argc : Option Nat) :
    Ext [] s ⟨{ (s.w.alloc (.opaque .nfunc)).1 with
      nat := fun x => if x = s.w.heap.length then some (id, argc) else s.w.nat x }, s.funs⟩ :=
  { Ext.alloc s (.opaque .nfunc) with
    nat := fun x hx => if_neg (Nat.ne_of_lt hx) }

/-- Reading the name of a native function. -/
theorem wp_fn (hB : Conf B) (h : Sit B G m outer D c s0 s env K) {n : Name} {id : Nat} {argc : Option Nat}
    (hr : resolve G env outer n = none) (hv : basicTable.lookup n = some (.fn id argc)) {Q : Ref → SSt World → Prop}
    (hq : ∀ r s', Sit B G m outer D c s0 s' env K → s'.w.heap[r]? = some (.opaque .nfunc) →
      s'.w.nat r = some (id, argc) → Q r s') (hn : good n = true := by rfl) :
    wp ((Expr.ident n).eval c) Q s := by
  have e := h.found hB hn
  have e2 : stdSlot B 0 n = some (Item.value (.fn id argc)) := by
    show (basicTable.lookup n).map Item.value = _
    rw [hv]
    rfl
  rw [hr] at e
  dsimp only at e
  rw [e2] at e
  have h1 := h.after (.alloc s (.str (ascii n))) nofun h.glob.err
  have h2 := h1.after (.withNat _ id argc) nofun h.glob.err
  simp only [Expr.eval]
  rw [h.L]
  refine wp_lift (L := objects (std B)) e h.glob.err (hq _ _ h2 ?_ ?_)
  · exact alloc_get (s.w.alloc (.str (ascii n))).1 (.opaque .nfunc)
  · exact if_pos rfl

/-- Assigning a variable. -/
theorem wp_store (hB : Conf B) (h : Sit B G m outer D c s0 s env K) {n : Name} {v : Ref}
    {Q : Unit → SSt World → Prop} (hq : ∀ s', Sit B G m outer D c s0 s' ((n, v) :: env) K → Q () s')
    (hn : good n = true := by rfl) : wp (lift c.L (c.L.setVar c.locals n v)) Q s := by
  obtain ⟨es, he, hk, hv⟩ := h.vars
  obtain ⟨w', hw, ⟨es', hr, hks⟩, hb, hx, hcl, hf, hnat, htab, hout, herr⟩ :=
    C33_write_partial (std B) s.w n (ascii n) c.locals v es (good_cstring hn) (good_nul hn)
      (Nat.lt_trans (by decide) hB.fuel) (hB.reach _) he hk
  have hlen : s.w.heap.length ≤ w'.heap.length := by
    refine Nat.le_of_not_lt fun hlt => ?_
    have hl := h.vars.lt
    have hl' := get_lt hr
    by_cases e : w'.heap.length = c.locals
    · rw [e] at hl'; exact absurd hl' (Nat.lt_irrefl _)
    · have := hx _ hlt e
      rw [List.getElem?_eq_none (Nat.le_refl _)] at this
      have := List.getElem?_eq_none_iff.1 this.symm
      exact absurd hlt (Nat.not_lt_of_le this)
  have ext : Ext [c.locals] s ⟨w', s.funs⟩ :=
    { len := hlen
      heap := fun x hl hd => hx x hl (by simpa using hd)
      dmap := fun x hd _ => by rw [List.mem_singleton.1 hd]; exact ⟨es, he⟩
      clos := fun _ _ => by rw [hcl]
      fclo := fun _ _ => by rw [hf]
      nat := fun _ _ => by rw [hnat]
      tab := fun _ _ => by rw [htab]
      funs := fun _ _ => rfl
      out := hout }
  have hd := fun x hx => h.disj x hx
  have hdl := h.disj c.locals (by simp)
  rw [h.L]
  refine wp_lift (L := objects (std B)) hw (by show w'.err = false; rw [herr]; exact h.glob.err) (hq _ ?_)
  refine
    { L := h.L, fuel := h.fuel, call := h.call
      glob := h.glob.ext ext (by simp; exact fun e => hdl.1 e.symm) (by simp; exact fun e => hdl.2.1 e.symm)
        (by show w'.err = false; rw [herr]; exact h.glob.err)
        (fun p hp hx => h.recs.1 p hp (List.mem_singleton.1 hx))
        (fun x hx => by rw [List.mem_singleton.1 hx]; exact h.recs.2)
      fresh := h.fresh
      ext := h.ext.trans ext fun x hx hl => by rw [List.mem_singleton.1 hx]; simp
      disj := h.disj, locals := h.locals, recs := h.recs
      vars := ?_
      clo := ?_
      outs := fun p hp => (h.outs p hp).ext ext (by simp; exact fun e => hdl.2.2 p hp e.symm)
      know := h.know.ext ext }
  · refine ⟨es', hr, hks, fun k => ?_⟩
    have hbk := hb k
    rw [bound_map hr, bound_map he, hv k] at hbk
    have inj : ∀ a b : Option Ref, a.map (fun v w => Out.ok (W := World) w v) = b.map (fun v w => Out.ok w v) → a = b := by
      intro a b hab
      cases a with
      | none => cases b with
        | none => rfl
        | some y => cases hab
      | some x => cases b with
        | none => cases hab
        | some y =>
          simp only [Option.map_some, Option.some.injEq] at hab
          have := congrFun hab s.w
          simp only [Out.ok.injEq, true_and] at this
          rw [this]
    rw [List.lookup_cons]
    by_cases e : k = n
    · subst e
      rw [if_pos rfl] at hbk
      rw [beq_self_eq_true]
      exact inj _ (some v) hbk
    · rw [if_neg e] at hbk
      rw [show (k == n) = false from beq_eq_false_iff_ne.2 e]
      exact inj _ _ hbk
  · refine ext.oscopes h.clo fun x hx => ?_
    obtain ⟨p, hp, rfl⟩ := List.mem_map.1 hx
    simp
    exact fun e => hdl.2.2 p hp e.symm

/-! ### Expressions -/

theorem wp_int (h : Sit B G m outer D c s0 s env K) {v : Int} {Q : Ref → SSt World → Prop}
    (hq : ∀ r s', Sit B G m outer D c s0 s' env ((r, .int v) :: K) → Q r s') : wp ((Expr.int v).eval c) Q s := by
  simp only [Expr.eval]
  refine wp_mk h (o := .int v) nofun ?_ hq
  rw [h.L]
  rfl

theorem wp_str (h : Sit B G m outer D c s0 s env K) {t : List UInt8} {Q : Ref → SSt World → Prop}
    (hq : ∀ r s', Sit B G m outer D c s0 s' env ((r, .str (ascii t)) :: K) → Q r s') (ht : good t = true := by rfl) :
    wp ((Expr.str t).eval c) Q s := by
  simp only [Expr.eval]
  refine wp_mk h (o := .str (ascii t)) nofun ?_ hq
  rw [h.L]
  show (outOf s.w (cstring (t.takeWhile (· ≠ 0)))).bind _ = _
  rw [takeWhile_noNul t (good_nul ht), good_cstring ht]
  rfl

theorem wp_none (h : Sit B G m outer D c s0 s env K) {Q : Ref → SSt World → Prop} (hq : Q 0 s) :
    wp (Expr.none.eval c) Q s := by
  simp only [Expr.eval]
  rw [h.L]
  exact wp_pure hq

theorem wp_tru (h : Sit B G m outer D c s0 s env K) {Q : Ref → SSt World → Prop} (hq : Q (boolRef true) s) :
    wp (Expr.tru.eval c) Q s := by
  simp only [Expr.eval]
  rw [h.L]
  exact wp_pure hq

theorem wp_bin {op : BinOp} {a b : Expr} {Q : Ref → SSt World → Prop}
    (h : wp (a.eval c) (fun x s => wp (b.eval c) (fun y s => wp (lift c.L (c.L.bin op x y)) Q s) s) s) :
    wp ((Expr.bin op a b).eval c) Q s := by
  simp only [Expr.eval]
  exact wp_bind (wp_mono h fun x s' h' => wp_bind h')

theorem wp_math (h : Sit B G m outer D c s0 s env K) {op : BinOp} {o : Num.MathOp} {x y : Ref} {a b v : Int}
    (ho : mathOf op = some o) (hx : (x, .int a) ∈ K) (hy : (y, .int b) ∈ K) (hv : Num.mathInt o a b = .ok (.int v))
    {Q : Ref → SSt World → Prop} (hq : ∀ r s', Sit B G m outer D c s0 s' env ((r, .int v) :: K) → Q r s') :
    wp (lift c.L (c.L.bin op x y)) Q s := by
  refine wp_mk h (o := .int v) nofun ?_ hq
  rw [h.L]
  show binObj (std B) op x y s.w = _
  cases op <;> cases ho <;> simp only [binObj, h.obj hx, h.obj hy, mathOf, numOf, Num.mathOp, hv] <;> rfl

theorem math_ub (h : Sit B G m outer D c s0 s env K) {op : BinOp} {o : Num.MathOp} {x y : Ref} {a b : Int}
    (ho : mathOf op = some o) (hx : (x, .int a) ∈ K) (hy : (y, .int b) ∈ K) (hv : Num.mathInt o a b = .ub) :
    lift c.L (c.L.bin op x y) s = .ub := by
  rw [h.L]
  have : (objects (std B)).bin op x y s.w = .ub := by
    show binObj (std B) op x y s.w = .ub
    cases op <;> cases ho <;> simp only [binObj, h.obj hx, h.obj hy, mathOf, numOf, Num.mathOp, hv] <;> rfl
  unfold lift
  rw [this]

theorem wp_mod (h : Sit B G m outer D c s0 s env K) {x y : Ref} {a b v : Int}
    (hx : (x, .int a) ∈ K) (hy : (y, .int b) ∈ K)
    (hv : Num.modOp (some (.int a)) (some (.int b)) = .ok (.int v))
    {Q : Ref → SSt World → Prop} (hq : ∀ r s', Sit B G m outer D c s0 s' env ((r, .int v) :: K) → Q r s') :
    wp (lift c.L (c.L.bin .mod x y)) Q s := by
  refine wp_mk h (o := .int v) nofun ?_ hq
  rw [h.L]
  show binObj (std B) .mod x y s.w = _
  simp only [binObj, h.obj hx, h.obj hy, mathOf, relOf, numOf, hv]
  rfl

theorem wp_rel (h : Sit B G m outer D c s0 s env K) {op : BinOp} {o : Num.RelOp} {x y : Ref} {a b : Int}
    (ho : relOf op = some o) (hx : (x, .int a) ∈ K) (hy : (y, .int b) ∈ K)
    {Q : Ref → SSt World → Prop} (hq : Q (boolRef (Num.relInt o a b)) s) : wp (lift c.L (c.L.bin op x y)) Q s := by
  refine wp_lift (w := s.w) (a := boolRef (Num.relInt o a b)) ?_ (by rw [h.L]; exact h.glob.err) hq
  rw [h.L]
  show binObj (std B) op x y s.w = _
  cases op <;> cases ho <;> simp only [binObj, h.obj hx, h.obj hy, mathOf, relOf, numOf, Num.relOp] <;> rfl

theorem wp_eql (h : Sit B G m outer D c s0 s env K) {x y : Ref} {o o' : Obj} {b : Bool}
    (hx : s.w.heap[x]? = some o) (hy : s.w.heap[y]? = some o')
    (hb : (if o.kind ≠ o'.kind then Exec.ok false else Graph.opEql o o') = .ok b)
    {Q : Ref → SSt World → Prop} (hq : Q (boolRef b) s) : wp (lift c.L (c.L.bin .eql x y)) Q s := by
  refine wp_lift (w := s.w) (a := boolRef b) ?_ (by rw [h.L]; exact h.glob.err) hq
  rw [h.L]
  show binObj (std B) .eql x y s.w = _
  have : Graph.compare s.w.heap x y = .ok b := by
    unfold Graph.compare
    rw [rd_ok_iff.mpr hx, Exec.bind_ok, rd_ok_iff.mpr hy, Exec.bind_ok]
    exact hb
  simp only [binObj, this, outOf, Out.bind]

theorem wp_eqlType (h : Sit B G m outer D c s0 s env K) {k k' : Kind} {Q : Ref → SSt World → Prop}
    (hq : Q (boolRef (decide (k = k'))) s) : wp (lift c.L (c.L.bin .eql (typeRef k) (typeRef k'))) Q s :=
  wp_eql h (typeRef_static k s.w) (typeRef_static k' s.w) (by simp [Obj.kind, Graph.opEql]) hq

theorem bool_static (b : Bool) (w : World) : w.heap[boolRef b]? = some (.bool b) := by
  cases b
  · exact heap_static w 2 (by decide)
  · exact heap_static w 1 (by decide)

theorem none_static (w : World) : w.heap[0]? = some .none := heap_static w 0 (by decide)

theorem wp_asBool (h : Sit B G m outer D c s0 s env K) {b : Bool} {Q : Bool → SSt World → Prop} (hq : Q b s) :
    wp (lift c.L (c.L.asBool (boolRef b))) Q s := by
  refine wp_lift (w := s.w) (a := b) ?_ (by rw [h.L]; exact h.glob.err) hq
  rw [h.L]
  show (match s.w.heap[boolRef b]? with | some (.bool b) => Out.ok s.w b | some _ => .err s.w | none => .ub) = _
  rw [bool_static]

theorem wp_and {a b : Expr} {Q : Ref → SSt World → Prop}
    (h : wp (a.eval c) (fun x s => wp (lift c.L (c.L.asBool x)) (fun p s =>
      if p then wp (b.eval c) (fun y s => wp (lift c.L (c.L.asBool y)) (fun q s => Q (if q then c.L.tru else c.L.fls) s) s) s
      else Q c.L.fls s) s) s) :
    wp ((Expr.and a b).eval c) Q s := by
  simp only [Expr.eval]
  refine wp_bind (wp_mono h fun x s1 h1 => wp_bind (wp_mono h1 fun p s2 h2 => ?_))
  cases p with
  | false => exact wp_pure h2
  | true =>
    refine wp_bind (wp_mono (h2 : wp _ _ _) fun y s3 h3 => wp_bind (wp_mono h3 fun q s4 h4 => ?_))
    cases q with
    | false => exact wp_pure h4
    | true => exact wp_pure h4

theorem wp_assign {n : Name} {e : Expr} {Q : Ref → SSt World → Prop}
    (h : wp (e.eval c) (fun v s => wp (lift c.L (c.L.setVar c.locals n v)) (fun _ s => Q v s) s) s) :
    wp ((Expr.assign (.var n) e).eval c) Q s := by
  simp only [Expr.eval, Target.store]
  exact wp_bind (wp_mono h fun v s1 h1 => wp_bind (wp_mono h1 fun _ s2 h2 => wp_pure h2))

theorem wp_nil {Q : List Ref → SSt World → Prop} (h : Q [] s) : wp (Exprs.nil.eval c) Q s := by
  simp only [Exprs.eval]
  exact wp_pure h

theorem wp_cons {e : Expr} {es : Exprs} {Q : List Ref → SSt World → Prop}
    (h : wp (e.eval c) (fun v s => wp (es.eval c) (fun vs s => Q (v :: vs) s) s) s) :
    wp ((Exprs.cons e es).eval c) Q s := by
  simp only [Exprs.eval]
  exact wp_bind (wp_mono h fun v s1 h1 => wp_bind (wp_mono h1 fun _ s2 h2 => wp_pure h2))

/-- A call: the arguments, the function, then the call itself. -/
theorem wp_call {f : Expr} {args : Exprs} {Q : Ref → SSt World → Prop}
    (h : wp (args.eval c) (fun vs s => wp (f.eval c) (fun g s =>
      wp (c.call g vs.reverse 1) (fun r s => ∃ v, r = [v] ∧ Q v s) s) s) s) :
    wp ((Expr.call (.fn f args)).eval c) Q s := by
  simp only [Expr.eval, Call.eval]
  refine wp_bind (wp_bind (wp_mono h fun vs s1 h1 => wp_bind (wp_mono h1 fun g s2 h2 => wp_mono h2 fun r s3 h3 => ?_)))
  obtain ⟨v, rfl, hv⟩ := h3
  exact wp_pure hv

/-! ### Statements -/

/-- Two results of a call: the second one is stored first. -/
theorem wp_pair {a b : Name} {f : Expr} {args : Exprs} {Q : Ref → SSt World → Prop}
    (h : wp (args.eval c) (fun vs s => wp (f.eval c) (fun g s =>
      wp (c.call g vs.reverse 2) (fun r s => ∃ v w, r = [v, w] ∧ wp (lift c.L (c.L.setVar c.locals b w)) (fun _ s =>
        wp (lift c.L (c.L.setVar c.locals a v)) (fun _ s => Q v s) s) s) s) s) s) :
    wp ((Expr.massign (.var a) (.one (.var b)) (.fn f args)).eval c) Q s := by
  simp only [Expr.eval, Call.eval]
  refine wp_bind (wp_bind (wp_mono h fun vs s1 h1 => wp_bind (wp_mono h1 fun g s2 h2 => wp_mono h2 fun r s3 h3 => ?_)))
  obtain ⟨v, w, rfl, hv⟩ := h3
  simp only [Targets.store, Target.store]
  exact wp_bind (wp_mono hv fun _ s4 h4 => wp_bind (wp_mono h4 fun _ s5 h5 => wp_pure h5))

theorem wp_expr {e : Expr} {Q : Ctl → SSt World → Prop} (h : wp (e.eval c) (fun _ s => Q .normal s) s) :
    wp ((Stmt.expr e).eval c) Q s := by
  simp only [Stmt.eval]
  exact wp_bind (wp_mono h fun v s1 h1 => wp_pure h1)

theorem wp_ret {es : Exprs} {Q : Ctl → SSt World → Prop} (h : wp (es.eval c) (fun vs s => Q (.ret vs) s) s) :
    wp ((Stmt.ret es).eval c) Q s := by
  simp only [Stmt.eval]
  exact wp_bind (wp_mono h fun v s1 h1 => wp_pure h1)

theorem wp_ifOnly {e : Expr} {t : Stmt} {Q : Ctl → SSt World → Prop}
    (h : wp (e.eval c) (fun v s => wp (lift c.L (c.L.asBool v)) (fun b s =>
      if b then wp (t.eval c) Q s else Q .normal s) s) s) :
    wp ((Stmt.ifOnly e t).eval c) Q s := by
  simp only [Stmt.eval]
  refine wp_bind (wp_mono h fun x s1 h1 => wp_bind (wp_mono h1 fun p s2 h2 => ?_))
  cases p with
  | false => exact wp_pure h2
  | true => exact h2

theorem wp_ifElse {e : Expr} {t f : Stmt} {Q : Ctl → SSt World → Prop}
    (h : wp (e.eval c) (fun v s => wp (lift c.L (c.L.asBool v)) (fun b s =>
      if b then wp (t.eval c) Q s else wp (f.eval c) Q s) s) s) :
    wp ((Stmt.ifElse e t f).eval c) Q s := by
  simp only [Stmt.eval]
  refine wp_bind (wp_mono h fun x s1 h1 => wp_bind (wp_mono h1 fun p s2 h2 => ?_))
  cases p with
  | false => exact h2
  | true => exact h2

theorem wp_comp {ss : Stmts} {Q : Ctl → SSt World → Prop} (h : wp (ss.eval c) Q s) : wp ((Stmt.comp ss).eval c) Q s := by
  simp only [Stmt.eval]
  exact h

theorem wp_end {Q : Ctl → SSt World → Prop} (h : Q .normal s) : wp (Stmts.nil.eval c) Q s := by
  simp only [Stmts.eval]
  exact wp_pure h

/-- One statement, then the others. -/
theorem wp_seq {t : Stmt} {ss : Stmts} {Q : Ctl → SSt World → Prop}
    (h : wp (t.eval c) (fun r s => r = .normal ∧ wp (ss.eval c) Q s) s) : wp ((Stmts.cons t ss).eval c) Q s := by
  simp only [Stmts.eval]
  refine wp_bind (wp_mono h fun r s1 h1 => ?_)
  obtain ⟨rfl, h1⟩ := h1
  exact h1

/-- A statement that returns. -/
theorem wp_last {t : Stmt} {ss : Stmts} {Q : Ctl → SSt World → Prop}
    (h : wp (t.eval c) (fun r s => ∃ vs, r = .ret vs ∧ Q r s) s) : wp ((Stmts.cons t ss).eval c) Q s := by
  simp only [Stmts.eval]
  refine wp_bind (wp_mono h fun r s1 h1 => ?_)
  obtain ⟨vs, rfl, h1⟩ := h1
  exact wp_pure h1

/-- One statement, then the others, whatever they do. -/
theorem then_seq {t : Stmt} {ss : Stmts} {P : Res World Ctl → Prop}
    (h : wp (t.eval c) (fun r s => r = .normal ∧ P (ss.eval c s)) s) : P ((Stmts.cons t ss).eval c s) := by
  simp only [Stmts.eval]
  refine then_bind (P := P) (wp_mono h fun r s1 h1 => ?_)
  obtain ⟨rfl, h1⟩ := h1
  exact h1

theorem ub_seq {t : Stmt} {ss : Stmts} (h : t.eval c s = .ub) : (Stmts.cons t ss).eval c s = .ub := by
  simp only [Stmts.eval]
  exact ub_bind h

theorem err_seq {t : Stmt} {ss : Stmts} (h : Errs (t.eval c s)) : Errs ((Stmts.cons t ss).eval c s) := by
  simp only [Stmts.eval]
  exact err_bind h

/-! ### Loops -/

theorem then_loop {n : Nat} {t : M World Bool} {b : M World Ctl} {P : Res World Ctl → Prop}
    (h : wp t (fun x s => x = true ∧ wp b (fun r s => r = .normal ∧ P (whileLoop n t b s)) s) s) :
    P (whileLoop (n + 1) t b s) := by
  unfold whileLoop
  refine then_bind (P := P) (wp_mono h fun x s1 h1 => ?_)
  obtain ⟨rfl, h1⟩ := h1
  refine then_bind (P := P) (wp_mono h1 fun r s2 h2 => ?_)
  obtain ⟨rfl, h2⟩ := h2
  exact h2

theorem loop_end {n : Nat} {t : M World Bool} {b : M World Ctl} {P : Res World Ctl → Prop}
    (h : wp t (fun x s => x = false ∧ P (.ok s .normal)) s) : P (whileLoop (n + 1) t b s) := by
  unfold whileLoop
  refine then_bind (P := P) (wp_mono h fun x s1 h1 => ?_)
  obtain ⟨rfl, h1⟩ := h1
  exact h1

theorem loop_ub {n : Nat} {t : M World Bool} {b : M World Ctl} (h : t s = .ub) : whileLoop (n + 1) t b s = .ub := by
  unfold whileLoop
  exact ub_bind h

/-! ### Calls -/

theorem wp_results {L : Layer World} {k : Nat} {vs : List Ref} {Q : List Ref → SSt World → Prop}
    (hk : min vs.length k ≤ 8) (h : Q (vs.take k ++ List.replicate (k - vs.length) L.none) s) :
    wp (results L k vs) Q s := by
  unfold results
  rw [if_neg (by omega)]
  exact wp_pure h

/-- Calling a native function. -/
theorem wp_native {m : Nat} {g : Ref} {id : Nat} {argc : Option Nat} {args vs : List Ref} {k : Nat} {w : World}
    {Q : List Ref → SSt World → Prop} (he : s.w.err = false)
    (hg : s.w.heap[g]? = some (.opaque .nfunc)) (hn : s.w.nat g = some (id, argc))
    (hr : stdNative B id ((objects (std B)).adapt argc args) s.w = .ok w (.done vs)) (hw : w.err = false)
    (hk : min vs.length k ≤ 8) (hq : Q (vs.take k ++ List.replicate (k - vs.length) 0) ⟨w, s.funs⟩) :
    wp (callN (objects (std B)) (m + 1) g args k) Q s := by
  unfold callN
  refine wp_bind (wp_lift (w := s.w) (a := .native id argc) ?_ he ?_)
  · show calleeOf g s.w = _
    unfold calleeOf
    rw [hg]
    dsimp only
    rw [hn]
  · refine wp_bind (wp_lift (w := w) (a := .done vs) hr hw ?_)
    exact wp_results hk hq

/-- Calling a native function that makes an object. -/
theorem wp_nat {m : Nat} (h : Sit B G (m + 1) outer D c s0 s env K) {g : Ref} {id : Nat} {argc : Option Nat}
    {args : List Ref} {o : Obj} (hg : (g, id, argc) ∈ G.nats) (ho : o.kind ≠ .map)
    (hr : stdNative B id ((objects (std B)).adapt argc args) s.w = (mk s.w o).bind fun r w => .ok w (.done [r]))
    {Q : Ref → SSt World → Prop} (hq : ∀ r s', Sit B G (m + 1) outer D c s0 s' env ((r, o) :: K) → Q r s') :
    wp (c.call g args 1) (fun r s => ∃ v, r = [v] ∧ Q v s) s := by
  obtain ⟨a, b⟩ := h.glob.nats _ hg
  rw [h.call]
  exact wp_native (vs := [(s.w.alloc o).2]) h.glob.err a b hr h.glob.err (by simp)
    ⟨_, rfl, hq _ _ (h.alloc ho)⟩

theorem err_native {m : Nat} {g : Ref} {id : Nat} {argc : Option Nat} {args : List Ref} {k : Nat} {w : World}
    (he : s.w.err = false) (hg : s.w.heap[g]? = some (.opaque .nfunc)) (hn : s.w.nat g = some (id, argc))
    (hr : stdNative B id ((objects (std B)).adapt argc args) s.w = .err w) :
    Errs (callN (objects (std B)) (m + 1) g args k s) := by
  unfold callN
  refine then_bind (wp_lift (w := s.w) (a := .native id argc) ?_ he ?_)
  · show calleeOf g s.w = _
    unfold calleeOf
    rw [hg]
    dsimp only
    rw [hn]
  · refine err_bind ⟨w, ?_⟩
    have : (objects (std B)).native id ((objects (std B)).adapt argc args) s.w = .err w := hr
    unfold lift
    dsimp only
    rw [this]

/-- A new scope. -/
theorem fresh (g : Globals B G s) (hk : Knows s K) {clo : Option Ref} (hs : OScopes s.w clo (outer.map (·.1)))
    (ho : ∀ p ∈ outer, Vars s.w p.1 p.2) (hD : ∀ x ∈ D, x ≠ G.V ∧ x ≠ G.M ∧ ∀ p ∈ outer, x ≠ p.1)
    (hDm : ∀ x ∈ D, ∃ es, s.w.heap[x]? = some (.map es)) :
    Sit B G m outer D ⟨objects (std B), m, callN (objects (std B)) m, (s.w.alloc (.map [])).2, clo⟩ s
      ⟨(s.w.alloc (.map [])).1, s.funs⟩ [] K := by
  have e := Ext.alloc s (.map [])
  have hnD : (s.w.alloc (.map [])).2 ∉ D := by
    intro hx
    obtain ⟨es, he⟩ := hDm _ hx
    exact absurd (get_lt he) (Nat.lt_irrefl _)
  exact
    { L := rfl, fuel := rfl, call := rfl
      glob := g.ext e (by simp) (by simp) g.err
      fresh := Nat.le_refl _
      ext := { e with
        heap := fun x hx _ => e.heap x hx (by simp)
        dmap := fun x hx hl => by
          rcases List.mem_cons.1 hx with rfl | hx
          · exact absurd hl (Nat.lt_irrefl _)
          · exact hDm x hx }
      disj := fun x hx => by
        rcases List.mem_cons.1 hx with rfl | hx
        · exact ⟨fun e => absurd (e ▸ g.vars.lt) (Nat.lt_irrefl _), fun e => absurd (e ▸ g.mods.lt) (Nat.lt_irrefl _),
            fun p hp e => absurd (e ▸ (ho p hp).lt) (Nat.lt_irrefl _)⟩
        · exact hD x hx
      locals := hnD
      recs := ⟨fun p hp e => absurd (e ▸ (g.recs p hp).lt) (Nat.lt_irrefl _), g.old_le⟩
      vars := ⟨[], alloc_get _ _, nofun, fun n => rfl⟩
      clo := e.oscopes hs (fun _ _ => by simp)
      outs := fun p hp => (ho p hp).ext e (by simp)
      know := hk.ext e }

/-- A new function call, before the parameters are bound. -/
theorem enterF (g : Globals B G s) (hk : Knows s K) {f : Ref} {fd : FunDef} (hf : s.w.heap[f]? = some (.opaque .func))
    (hd : s.funs f = some fd) {clo : Ref} (hc : s.w.fclo f = some clo) (hs : Scopes s.w clo (outer.map (·.1)))
    (ho : ∀ p ∈ outer, Vars s.w p.1 p.2) (hD : ∀ x ∈ D, x ≠ G.V ∧ x ≠ G.M ∧ ∀ p ∈ outer, x ≠ p.1)
    (hDm : ∀ x ∈ D, ∃ es, s.w.heap[x]? = some (.map es))
    {args : List Ref} {k : Nat} {P : Res World (List Ref) → Prop}
    (h : ∀ c s1, Sit B G m outer D c s s1 [] K → P ((fd.run c ((objects (std B)).fit fd.params.count args) >>=
      fun vs => results (objects (std B)) k vs) s1)) :
    P (callN (objects (std B)) (m + 1) f args k s) := by
  unfold callN
  refine then_bind (wp_lift (w := s.w) (a := .noja clo) ?_ g.err ?_)
  · show calleeOf f s.w = _
    unfold calleeOf
    rw [hf]
    dsimp only
    rw [hc]
  · refine then_bind (P := P) ⟨s, some fd, ?_, ?_⟩
    · show Res.ok s (s.funs f) = _
      rw [hd]
    · refine then_bind (P := P) (wp_lift (w := (s.w.alloc (.map [])).1) (a := (s.w.alloc (.map [])).2) rfl g.err ?_)
      exact h _ _ (fresh g hk (clo := some clo) hs ho hD hDm)

/-- A program, whose names are looked up in its own variables and among the builtins. -/
theorem then_mean (g : Globals B G s) (hk : Knows s K) {p : Stmts} {P : Res World (List Ref) → Prop}
    (h : ∀ c s1, Sit B G m [] [] c s s1 [] K → P (p.run c s1)) : P (p.mean (objects (std B)) m s) := by
  unfold Stmts.mean
  refine then_bind (P := P) (wp_lift (w := (s.w.alloc (.map [])).1) (a := (s.w.alloc (.map [])).2) rfl g.err ?_)
  exact h _ _ (fresh g hk (clo := none) rfl (fun _ h => nomatch h) (fun _ h => nomatch h) (fun _ h => nomatch h))

theorem wp_prog {p : Stmts} {Q : List Ref → SSt World → Prop}
    (h : wp (p.eval c) (fun r s => ∃ vs, r = .ret vs ∧ Q vs s) s) : wp (p.run c) Q s := by
  unfold Stmts.run
  refine wp_bind (wp_mono h fun r s2 h2 => ?_)
  obtain ⟨vs, rfl, hq⟩ := h2
  exact wp_pure hq

/-- A function of the scope `V`. -/
theorem enterG (g : Globals B G s) (hk : Knows s K) {f : Ref} {fd : FunDef} (hf : (f, fd) ∈ G.funcs)
    {args : List Ref} {k : Nat} {P : Res World (List Ref) → Prop}
    (h : ∀ c s1, Sit B G m [(G.V, G.venv)] [] c s s1 [] K →
      P ((fd.run c ((objects (std B)).fit fd.params.count args) >>= fun vs => results (objects (std B)) k vs) s1)) :
    P (callN (objects (std B)) (m + 1) f args k s) := by
  obtain ⟨a, b, c, d, e⟩ := g.funcs _ hf
  refine enterF (D := []) g hk a b d (outer := [(G.V, G.venv)]) e ?_ (fun _ h => nomatch h) (fun _ h => nomatch h) h
  intro p hp
  rw [List.mem_singleton.1 hp]
  exact g.vars

theorem wp_enterG (g : Globals B G s) (hk : Knows s K) {f : Ref} {fd : FunDef} (hf : (f, fd) ∈ G.funcs)
    {args : List Ref} {k : Nat} {Q : List Ref → SSt World → Prop}
    (h : ∀ c s1, Sit B G m [(G.V, G.venv)] [] c s s1 [] K →
      wp (fd.run c ((objects (std B)).fit fd.params.count args) >>= fun vs => results (objects (std B)) k vs) Q s1) :
    wp (callN (objects (std B)) (m + 1) f args k) Q s :=
  enterG (P := fun x => ∃ s' a, x = .ok s' a ∧ Q a s') g hk hf h

/-- The body of a function that returns. -/
theorem wp_run {ps : Params} {b : Stmt} {args : List Ref} {Q : List Ref → SSt World → Prop}
    (h : wp (ps.bind c args.reverse) (fun _ s => wp (b.eval c) (fun r s => ∃ vs, r = .ret vs ∧ Q vs s) s) s) :
    wp ((FunDef.mk ps b).run c args) Q s := by
  simp only [FunDef.run]
  refine wp_bind (wp_mono h fun _ s1 h1 => wp_bind (wp_mono h1 fun r s2 h2 => ?_))
  obtain ⟨vs, rfl, hq⟩ := h2
  exact wp_pure hq

theorem ub_run {ps : Params} {b : Stmt} {args : List Ref}
    (h : wp (ps.bind c args.reverse) (fun _ s => b.eval c s = .ub) s) : (FunDef.mk ps b).run c args s = .ub := by
  simp only [FunDef.run]
  exact then_bind (P := fun x => x = .ub) (wp_mono h fun _ s1 h1 => ub_bind h1)

theorem err_run {ps : Params} {b : Stmt} {args : List Ref}
    (h : wp (ps.bind c args.reverse) (fun _ s => Errs (b.eval c s)) s) : Errs ((FunDef.mk ps b).run c args s) := by
  simp only [FunDef.run]
  exact then_bind (P := Errs) (wp_mono h fun _ s1 h1 => err_bind h1)

/-- A parameter without default and type. -/
theorem wp_param {n : Name} {ps : Params} {v : Ref} {vs : List Ref} {Q : Unit → SSt World → Prop}
    (h : wp (lift c.L (c.L.setVar c.locals n v)) (fun _ s => wp (ps.bind c vs) Q s) s) :
    wp ((Params.cons n .no .no ps).bind c (v :: vs)) Q s := by
  simp only [Params.bind, OExpr.eval, orElse, checkArg]
  exact wp_bind (wp_pure (wp_bind (wp_pure (wp_bind h))))

/-- A parameter with a type. -/
theorem wp_paramT {n : Name} {ps : Params} {v : Ref} {vs : List Ref} {t : Expr} {Q : Unit → SSt World → Prop}
    (h : wp (t.eval c) (fun tv s => wp (lift c.L (c.L.isType tv v)) (fun b s => b = true ∧
      wp (lift c.L (c.L.setVar c.locals n v)) (fun _ s => wp (ps.bind c vs) Q s) s) s) s) :
    wp ((Params.cons n .no (.yes t) ps).bind c (v :: vs)) Q s := by
  simp only [Params.bind, OExpr.eval, orElse, checkArg]
  refine wp_bind (wp_pure (wp_bind (wp_bind (wp_mono h fun tv s1 h1 => wp_bind (wp_mono h1 fun b s2 h2 => ?_)))))
  obtain ⟨rfl, h2⟩ := h2
  exact wp_pure (wp_bind h2)

/-- A parameter with a default that is used, because the argument is none. -/
theorem wp_paramD (h : Sit B G m outer D c s0 s env K) {n : Name} {ps : Params} {vs : List Ref} {d : Expr}
    {Q : Unit → SSt World → Prop}
    (hd : wp (d.eval c) (fun v s => wp (lift c.L (c.L.setVar c.locals n v)) (fun _ s => wp (ps.bind c vs) Q s) s) s) :
    wp ((Params.cons n (.yes d) .no ps).bind c (0 :: vs)) Q s := by
  simp only [Params.bind, OExpr.eval, orElse, checkArg]
  refine wp_bind (wp_bind (wp_lift (w := s.w) (a := true) ?_ (by rw [h.L]; exact h.glob.err)
    (wp_mono hd fun v s1 h1 => wp_bind (wp_pure (wp_bind h1)))))
  rw [h.L]
  have : kindOf 0 s.w = .ok s.w .none := by
    unfold kindOf
    rw [none_static]
    rfl
  show (kindOf 0 s.w).bind (fun k w => Out.ok w (decide (k = .none))) = _
  rw [this]
  rfl

/-- The check of a type that is just a type object. -/
theorem wp_isKind (hB : Conf B) (h : Sit B G m outer D c s0 s env K) {k : Kind} {v : Ref} {o : Obj}
    (hv : s.w.heap[v]? = some o) (hk : o.kind = k) {Q : Bool → SSt World → Prop} (hq : Q true s) :
    wp (lift c.L (c.L.isType (typeRef k) v)) Q s := by
  obtain ⟨f, hf⟩ : ∃ f, B.fuel = f + 1 := ⟨B.fuel - 1, by have := hB.fuel; omega⟩
  refine wp_lift (w := s.w) (a := true) ?_ (by rw [h.L]; exact h.glob.err) hq
  rw [h.L]
  show (outOf s.w (Graph.isTypeOf B.hit s.w.heap B.fuel s.w.err (typeRef k) v)).bind _ = _
  rw [hf]
  unfold Graph.isTypeOf
  rw [rd_ok_iff.mpr (typeRef_static k s.w), Exec.bind_ok, rd_ok_iff.mpr hv, Exec.bind_ok]
  simp [Graph.typeBody, hk, outOf, Out.bind]

/-- The check of a sum of two types. -/
theorem wp_isSum (hB : Conf B) (h : Sit B G m outer D c s0 s env K) {k k' : Kind} {t v : Ref} {o : Obj}
    (ht : s.w.heap[t]? = some (.sum (typeRef k) (typeRef k')))
    (hv : s.w.heap[v]? = some o) (hk : o.kind = k ∨ o.kind = k') {Q : Bool → SSt World → Prop} (hq : Q true s) :
    wp (lift c.L (c.L.isType t v)) Q s := by
  obtain ⟨f, hf⟩ : ∃ f, B.fuel = f + 2 := ⟨B.fuel - 2, by have := hB.fuel; omega⟩
  refine wp_lift (w := s.w) (a := true) ?_ (by rw [h.L]; exact h.glob.err) hq
  rw [h.L]
  show (outOf s.w (Graph.isTypeOf B.hit s.w.heap B.fuel s.w.err t v)).bind _ = _
  have one : ∀ k e, Graph.isTypeOf B.hit s.w.heap (f + 1) e (typeRef k) v = .ok (decide (o.kind = k), e) := by
    intro k e
    unfold Graph.isTypeOf
    rw [rd_ok_iff.mpr (typeRef_static k s.w), Exec.bind_ok, rd_ok_iff.mpr hv, Exec.bind_ok]
    rfl
  rw [hf]
  unfold Graph.isTypeOf
  rw [rd_ok_iff.mpr ht, Exec.bind_ok, rd_ok_iff.mpr hv, Exec.bind_ok]
  simp only [Graph.typeBody, one, Exec.bind_ok]
  by_cases h1 : o.kind = k
  · simp [h1, outOf, Out.bind]
  · have h2 : o.kind = k' := by rcases hk with h | h; exact absurd h h1; exact h
    simp [h1, h2, outOf, Out.bind]

/-- A call of a function about which something is known. -/
theorem wp_known (h : Sit B G m outer D c s0 s env K) {g : Ref} {args : List Ref} {o : Obj} (ho : o.kind ≠ .map)
    (hs : wp (callN (objects (std B)) m g args 1) (fun vs s' => ∃ v, vs = [v] ∧ Ext [] s s' ∧ s'.w.err = false ∧
      s'.w.heap[v]? = some o) s) {Q : Ref → SSt World → Prop}
    (hq : ∀ r s', Sit B G m outer D c s0 s' env ((r, o) :: K) → Q r s') :
    wp (c.call g args 1) (fun r s => ∃ v, r = [v] ∧ Q v s) s := by
  rw [h.call]
  refine wp_mono hs fun vs s' h' => ?_
  obtain ⟨v, rfl, e, he, hv⟩ := h'
  exact ⟨v, rfl, hq _ _ ((h.after e (fun _ h => nomatch h) he).learn ho hv)⟩

end Noja.VM
