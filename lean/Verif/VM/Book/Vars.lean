import Verif.VM.Book.Ops

/-!
# Variables do what the book says
-/

set_option linter.unusedVariables false
set_option linter.unusedSimpArgs false

namespace Noja.VM.Book

open Noja.Graph (Obj Kind Heap)

variable {S : Setup} {D : List Ref} {e e' : Emb} {σ σ' : Store} {s s' : SSt World}

/-- Both or neither. -/
def Opt2 {α β : Type} (R : α → β → Prop) : Option α → Option β → Prop
  | some a, some b => R a b
  | none, none => True
  | _, _ => False

theorem lookup_rep {renv : Env} {env : List (Name × Val)} (n : Name) : All2 (RepVar e s) renv env →
    Opt2 (Rep e s) (renv.lookup n) (env.lookup n) := by
  induction renv generalizing env with
  | nil => cases env with
    | nil => intro _; trivial
    | cons q env => intro h; exact h.elim
  | cons p renv ih => cases env with
    | nil => intro h; exact h.elim
    | cons q env =>
      intro ⟨⟨h1, h2⟩, h3⟩
      rw [List.lookup_cons, List.lookup_cons, h1]
      cases n == q.1 with
      | true => exact h2
      | false => exact ih h3

theorem scopes_rep (hi : Inv S e σ s) : ∀ {rs : List Ref} {as : List Nat} {envs : List (List (Name × Val))},
    All2 (At e) rs as → scopesOf σ as = some envs →
    ∃ outer : List (Ref × Env), outer.map (·.1) = rs ∧ (∀ p ∈ outer, Vars s.w p.1 p.2) ∧
      All2 (fun p env => All2 (RepVar e s) p.2 env) outer envs
  | [], [], envs, _, h => by cases h; exact ⟨[], rfl, by simp, trivial⟩
  | [], _ :: _, _, h, _ => h.elim
  | _ :: _, [], _, h, _ => h.elim
  | r :: rs, a :: as, envs, ⟨hr, hrs⟩, h => by
    unfold scopesOf at h
    split at h
    · rename_i env envs' hc hs
      cases h
      obtain ⟨outer, h1, h2, h3⟩ := scopes_rep hi hrs hs
      obtain ⟨renv, hv, ha⟩ := hi.cells a _ r hc hr
      refine ⟨(r, renv) :: outer, by simp [h1], fun p hp => ?_, ha, h3⟩
      rcases List.mem_cons.1 hp with rfl | hp
      · exact hv
      · exact h2 p hp
    · cases h

theorem findSome_rep {n : Name} : ∀ {outer : List (Ref × Env)} {envs : List (List (Name × Val))},
    All2 (fun p env => All2 (RepVar e s) p.2 env) outer envs →
    Opt2 (Rep e s) (outer.findSome? fun p => p.2.lookup n) (envs.findSome? (·.lookup n))
  | [], [], _ => trivial
  | [], _ :: _, h => h.elim
  | _ :: _, [], h => h.elim
  | p :: outer, env :: envs, ⟨h, hs⟩ => by
    have h1 := lookup_rep (e := e) (s := s) n h
    rw [List.findSome?_cons, List.findSome?_cons]
    cases ha : p.2.lookup n with
    | some r =>
      cases hb : env.lookup n with
      | some v => rw [ha, hb] at h1; exact h1
      | none => rw [ha, hb] at h1; exact h1.elim
    | none =>
      cases hb : env.lookup n with
      | some v => rw [ha, hb] at h1; exact h1.elim
      | none => exact findSome_rep hs

theorem Chain.scopes {w : World} {c : Ref} {rs : List Ref} (h : Chain w c rs) (hs : ∀ r ∈ rs, Scopes w r [r]) :
    Scopes w c rs := by
  induction h with
  | last a b d => exact .last a b d (hs _ (List.mem_singleton.2 rfl))
  | @more c p v rs a b d f _ ih =>
    exact .more (as := [v]) (bs := rs) a b d f (hs _ (by simp)) (ih fun r hr => hs r (List.mem_cons_of_mem _ hr))

theorem OChain.oscopes {w : World} {c : Option Ref} {rs : List Ref} (h : OChain w c rs)
    (hs : ∀ r ∈ rs, Scopes w r [r]) : OScopes w c rs := by
  cases c with
  | none => exact h
  | some c => exact Chain.scopes h hs

/-! ## The table of builtins -/

def Item.means : Item → Val → Bool
  | .type k, .type (.kind k') => decide (k = k')
  | .any, .type .any => true
  | .table t, .lib l => decide (t = l.id)
  | .float x, .float y => decide (x = y)
  | .fn id argc, .prim p => decide (id = p.id ∧ argc = p.argc)
  | _, _ => false

theorem builtins_table : (builtins.all fun p => !otherNames.contains p.1 &&
    match basicTable.lookup p.1 with
    | some i => Item.means i p.2
    | none => false) = true := by decide +kernel

theorem table_builtins :
    (basicTable.all fun p => otherNames.contains p.1 || (builtins.lookup p.1).isSome) = true := by decide +kernel

theorem mem_of_lookup {β : Type} {n : Name} {v : β} : ∀ {l : List (Name × β)}, l.lookup n = some v → (n, v) ∈ l
  | [], h => by cases h
  | p :: l, h => by
    rw [List.lookup_cons] at h
    cases hb : n == p.1 with
    | true =>
      rw [hb] at h
      cases h
      rw [eq_of_beq hb]
      exact List.mem_cons_self ..
    | false => rw [hb] at h; exact List.mem_cons_of_mem _ (mem_of_lookup h)

/-- The values in tables. -/
theorem item_value [Floats] (ok : S.Ok) (hi : Inv S e σ s) {i : Item} {v : Val} (hm : Item.means i v = true) :
    ∃ w' r, i.value s.w = .ok w' r ∧ Le D e s e ⟨w', s.funs⟩ ∧ Inv S e σ ⟨w', s.funs⟩ ∧ Rep e ⟨w', s.funs⟩ r v := by
  cases i with
  | type k =>
    cases v with
    | type t =>
      cases t with
      | kind k' =>
        have hk : k = k' := of_decide_eq_true hm
        subst hk
        exact ⟨s.w, typeRef k, rfl, .refl _ _ _, hi, ⟨typeRef_static k s.w, trivial⟩⟩
      | _ => cases hm
    | _ => cases hm
  | any =>
    cases v with
    | type t =>
      cases t with
      | any => exact ⟨(s.w.alloc .any).1, (s.w.alloc .any).2, rfl, .alloc D e s _, hi.alloc ok _, ⟨alloc_get _ _, trivial⟩⟩
      | _ => cases hm
    | _ => cases hm
  | float x =>
    cases v with
    | float y =>
      have hx : x = y := of_decide_eq_true hm
      subst hx
      exact ⟨(s.w.alloc (.float x)).1, (s.w.alloc (.float x)).2, rfl, .alloc D e s _, hi.alloc ok _, alloc_get _ _⟩
    | _ => cases hm
  | table t =>
    cases v with
    | lib l =>
      have ht : t = l.id := of_decide_eq_true hm
      subst ht
      have hl : ∀ D, Le D e s e ⟨{ (s.w.alloc (.opaque .smap)).1 with
          tab := fun x => if x = (s.w.alloc (.opaque .smap)).2 then l.id else (s.w.alloc (.opaque .smap)).1.tab x }, s.funs⟩ :=
        fun D => .grow (t := [.opaque .smap]) (alloc_heap _ _) (fun _ _ => rfl) (fun _ _ => rfl) (fun _ _ => rfl)
          (fun x hx => if_neg fun q => by rw [q] at hx; exact absurd hx (Nat.lt_irrefl _)) fun _ _ => rfl
      refine ⟨_, _, rfl, hl D, hi.same ok (hl []) (fun x hx => ?_) hi.err rfl, alloc_get _ _, if_pos rfl⟩
      show (s.w.alloc (.opaque .smap)).1.heap[x]? = _
      rw [alloc_heap, List.getElem?_append_left (hi.low x hx).2]
    | _ => cases hm
  | fn id argc =>
    cases v with
    | prim p =>
      obtain ⟨h1, h2⟩ : id = p.id ∧ argc = p.argc := of_decide_eq_true hm
      subst h1
      subst h2
      have hl : ∀ D, Le D e s e ⟨{ (s.w.alloc (.opaque .nfunc)).1 with
          nat := fun x => if x = (s.w.alloc (.opaque .nfunc)).2 then some (p.id, p.argc) else
            (s.w.alloc (.opaque .nfunc)).1.nat x }, s.funs⟩ :=
        fun D => .grow (t := [.opaque .nfunc]) (alloc_heap _ _) (fun _ _ => rfl) (fun _ _ => rfl)
          (fun x hx => if_neg fun q => by rw [q] at hx; exact absurd hx (Nat.lt_irrefl _)) (fun _ _ => rfl)
          fun _ _ => rfl
      refine ⟨_, _, rfl, hl D, hi.same ok (hl []) (fun x hx => ?_) hi.err rfl, alloc_get _ _, if_pos rfl⟩
      show (s.w.alloc (.opaque .nfunc)).1.heap[x]? = _
      rw [alloc_heap, List.getElem?_append_left (hi.low x hx).2]
    | _ => cases hm

/-! ## Reading and writing -/

/-- Nothing was reported. -/
def Calm {α : Type} : Out World α → Prop
  | .ok w _ => w.err = false
  | .err w => w.err = false
  | .ub => False

/-- `f` is what the interpreter does to read a variable, or refuses to do it if something is reported. -/
theorem sim_getVar_calm [Floats] (ok : S.Ok) (hi : Inv S e σ s) {l : Ref} {c : Option Ref} {rs : List Ref} {a : Nat} {as : List Nat}
    (hl : At e l a) (hc : OChain s.w c rs) (hrs : All2 (At e) rs as) (n : Name) {f : World → Out World Ref}
    (hfr : goodName n = true → ∀ r, (LS S).getVar l c n s.w = r → Calm r → f s.w = r) :
    Sim S D e s Rep (lift (LS S) f s) (readVar (a :: as ++ S.lib) n σ) := by
  unfold readVar
  cases hn : goodName n with
  | false => trivial
  | true =>
    have hg : good n = true := hn
    rw [if_pos rfl]
    cases hs : scopesOf σ (a :: as ++ S.lib) with
    | none => trivial
    | some envs =>
      dsimp only
      obtain ⟨L, hL, hlib⟩ := hi.bins
      have hall : All2 (At e) (l :: rs ++ L) (a :: as ++ S.lib) := ⟨hl, hrs.append hlib⟩
      obtain ⟨outer, ho, hv, hr⟩ := scopes_rep hi hall hs
      have hsc : ∀ r ∈ l :: rs ++ L, Scopes s.w r [r] := fun r hr => by
        rw [← ho] at hr
        obtain ⟨p, hp, rfl⟩ := List.mem_map.1 hr
        exact (hv p hp).scopes
      have hob : OScopes s.w (std S.C).builtins (L ++ [S.T]) :=
        hL.scopes hi.tabo fun r hr => hsc r (List.mem_append_right _ hr)
      have hget := C33_read_partial (std S.C) s.w n (ascii n) l c rs _ (good_cstring hg) (good_nul hg)
        (Nat.lt_trans (by decide) ok.conf.fuel) hi.err (std_quiet ok.conf.quiet n) (ok.conf.reach _)
        (hsc l (by simp)) (hc.oscopes fun r hr => hsc r (by simp [hr])) hob
      have e4 : (l :: rs ++ L).findSome? (bound (std S.C) s.w n) =
          (outer.findSome? fun p => p.2.lookup n).map fun v w => .ok w v := by
        rw [← ho]
        exact findSome_map fun p hp => (hv p hp).bound n
      have e3 : bound (std S.C) s.w n S.T = stdSlot S.C 0 n := by
        unfold bound
        rw [hi.tabo]
        dsimp only
        rw [hi.tabt]
        rfl
      rw [← List.append_assoc, List.findSome?_append, e4] at hget
      have hrep := findSome_rep (e := e) (s := s) (n := n) hr
      have hi' := hi.alloc ok (.str (ascii n))
      have hle := fun D => Le.alloc D e s (.str (ascii n))
      cases hf : envs.findSome? (·.lookup n) with
      | some v =>
        dsimp only
        rw [hf] at hrep
        cases hq : outer.findSome? fun p => p.2.lookup n with
        | none => rw [hq] at hrep; exact hrep.elim
        | some r =>
          rw [hq] at hrep hget
          exact Sim.lift (hfr hn _ hget hi'.err) (hle D) hi' (Rep.le (v := v) hrep (hle []))
      | none =>
        dsimp only
        rw [hf] at hrep
        cases hq : outer.findSome? fun p => p.2.lookup n with
        | some r => rw [hq] at hrep; exact hrep.elim
        | none =>
          rw [hq] at hget
          simp only [Option.map_none, Option.none_or, List.findSome?_cons, List.findSome?_nil, e3] at hget
          cases hbl : builtins.lookup n with
          | some v =>
            dsimp only
            have hck := List.all_eq_true.1 builtins_table _ (mem_of_lookup hbl)
            rw [Bool.and_eq_true] at hck
            obtain ⟨h1, h2⟩ := hck
            have hno : n ∉ otherNames := by simpa using h1
            dsimp only at h2
            cases hlk : basicTable.lookup n with
            | none => rw [hlk] at h2; cases h2
            | some i =>
              rw [hlk] at h2
              have hsl : stdSlot S.C 0 n = some i.value := by
                show (basicTable.lookup n).map Item.value = _
                rw [hlk]
                rfl
              rw [hsl] at hget
              obtain ⟨w', r, hw, hl', hi'', hrv⟩ := item_value (D := D) ok hi' h2
              exact Sim.lift (hfr hn _ (hget.trans hw) hi''.err) ((hle D).trans hl') hi'' hrv
          | none =>
            dsimp only
            by_cases hno : n ∈ otherNames
            · rw [if_pos hno]; trivial
            · rw [if_neg hno]
              have hlk : stdSlot S.C 0 n = none := by
                show (basicTable.lookup n).map Item.value = _
                cases hlk : basicTable.lookup n with
                | none => rfl
                | some i =>
                  have hck := List.all_eq_true.1 table_builtins _ (mem_of_lookup hlk)
                  rw [Bool.or_eq_true] at hck
                  rcases hck with h | h
                  · exact absurd (by simpa using h) hno
                  · dsimp only at h; rw [hbl] at h; cases h
              rw [hlk] at hget
              exact Sim.liftErr hi (hfr hn _ hget hi.err) rfl

theorem sim_setVar [Floats] (ok : S.Ok) (hi : Inv S e σ s) {l : Ref} {a : Nat} (hl : At e l a) (n : Name) {r : Ref} {v : Val}
    (hv : Rep e s r v) :
    Sim S D e s (fun _ _ _ _ => True) (lift (LS S) ((LS S).setVar l n r) s) (writeVar S.fine a n v σ) := by
  unfold writeVar
  cases hn : goodName n with
  | false => trivial
  | true =>
    have hg : good n = true := hn
    rw [if_pos rfl]
    split
    · rename_i env hcell
      by_cases hfine : S.fine (namesIn env) = true
      case neg => rw [if_neg hfine]; trivial
      rw [if_pos hfine]
      have hh := hi.cells a _ l hcell hl
      obtain ⟨renv, hvars, henv⟩ := hh
      have hmem : l ∈ e := List.mem_of_getElem? hl
      obtain ⟨es, he, hk, hv'⟩ := hvars
      obtain ⟨w', hw, ⟨es', hr, hks⟩, hb, hx, hcl, hf, hnat, htab, hout, herr⟩ :=
        C33_write_partial (std S.C) s.w n (ascii n) l r es (good_cstring hg) (good_nul hg)
          (Nat.lt_trans (by decide) ok.conf.fuel) (ok.conf.reach _) he hk
      have hlen : s.w.heap.length ≤ w'.heap.length := by
        refine Nat.le_of_not_lt fun hlt => ?_
        have hl' := get_lt hr
        by_cases q : w'.heap.length = l
        · rw [q] at hl'; exact absurd hl' (Nat.lt_irrefl _)
        · have := hx _ hlt q
          rw [List.getElem?_eq_none (Nat.le_refl _)] at this
          have := List.getElem?_eq_none_iff.1 this.symm
          exact absurd hlt (Nat.not_lt_of_le this)
      have hle : ∀ D, Le D e s e ⟨w', s.funs⟩ := fun D =>
        { pre := ⟨[], by simp⟩
          fresh := fun _ h => .inl h
          len := hlen
          obj := fun x o ho h1 h2 _ => by
            show w'.heap[x]? = _
            rw [hx x (get_lt ho) fun q => by
              subst q
              rw [he] at ho
              cases ho
              exact h2 rfl]
            exact ho
          frame := fun x hxl h1 h2 => hx x hxl fun q => h1 (q ▸ hmem)
          clos := fun _ _ => by show w'.clos _ = _; rw [hcl]
          fclo := fun _ _ => by show w'.fclo _ = _; rw [hf]
          nat := fun _ _ => by show w'.nat _ = _; rw [hnat]
          tab := fun _ _ => by show w'.tab _ = _; rw [htab]
          funs := fun _ _ => rfl }
      refine Sim.lift hw (hle D) (hi.upd ok (hle []) hl (fun x hm hne => hx x (hi.low x hm).2 hne) ?_
        (by show w'.err = false; rw [herr]; exact hi.err) hout) trivial
      refine ⟨(n, r) :: renv, ⟨es', hr, hks, fun k => ?_⟩, ⟨rfl, hv.le (hle [])⟩,
        henv.imp fun _ _ h => ⟨h.1, h.2.le (hle [])⟩⟩
      have hbk := hb k
      rw [bound_map hr, bound_map he, hv' k] at hbk
      have inj : ∀ a b : Option Ref, a.map (fun v w => Out.ok (W := World) w v) = b.map (fun v w => Out.ok w v) →
          a = b := by
        intro a b hab
        cases a with
        | none => cases b with
          | none => rfl
          | some y => cases hab
        | some x => cases b with
          | none => cases hab
          | some y =>
            simp only [Option.map_some, Option.some.injEq] at hab
            have := congrFun hab s.w
            simp only [Out.ok.injEq, true_and] at this
            rw [this]
      rw [List.lookup_cons]
      by_cases q : k = n
      · subst q
        rw [if_pos rfl] at hbk
        rw [beq_self_eq_true]
        exact inj _ (some r) hbk
      · rw [if_neg q] at hbk
        rw [show (k == n) = false from beq_eq_false_iff_ne.2 q]
        exact inj _ _ hbk
    · trivial

end Noja.VM.Book
