import Verif.VM.Book.Prims
import Verif.VM.Guard

/-!
# Programs of the book meet the conditions of the guarded layer

What `Verif.VM.Book.Ops`, `Vars`, `Colls` and `Prims` prove about the layer of `Verif.VM.Objects`, for
the layer of `Verif.VM.Guard`: a program that the book describes looks for nothing but keys, its searches
report nothing, and it inserts in maps and scopes only if their keys are as `Setup.pos` asks.
-/

set_option linter.unusedVariables false
set_option linter.unusedSimpArgs false

namespace Noja.VM.Book

open Noja.Graph (Obj Kind Heap)

section
variable {S : Setup} {D : List Ref} {e e' : Emb} {σ σ' : Store} {s s' : SSt World} {α β : Type}
  {Q : Emb → SSt World → α → β → Prop}

abbrev LG (S : Setup) : Layer World := guarded (std S.C) S.pos

theorem lift_LG (f : World → Out World α) : lift (LG S) f = lift (LS S) f := rfl

/-! ## Keys -/

theorem fromString_again {src : List UInt8} {len : Nat} {s : Str.Str} (h : Str.fromString src len = .ok s) :
    Str.fromString (s.body.take s.bytes) s.bytes = .ok s := by
  obtain ⟨hw, hc, hb⟩ := Str.wf_fromString h
  have hc' : s.body.take s.bytes = src.take len := hc
  have hl : (src.take len).length = len := by
    rw [← hc', List.length_take, hw, hb]
    omega
  have hle : len ≤ src.length := by rw [List.length_take] at hl; omega
  rcases Str.fromString_spec src len hle with e | ⟨ps, hu, hf, e⟩
  · rw [e] at h; cases h
  · rw [e] at h
    cases h
    have := Str.fromString_units hu []
    rw [List.append_nil, hf, hl] at this
    rw [hc', hb]
    exact this

theorem isAtom_name {s : Str.Str} {src : List UInt8} {len : Nat} (h : Str.fromString src len = .ok s)
    (h0 : (0 : UInt8) ∉ s.body.take s.bytes) : isAtom (.str s) = true := by
  simp only [isAtom, Bool.and_eq_true, decide_eq_true_eq, Bool.not_eq_true']
  exact ⟨fromString_again h, by simpa using h0⟩

theorem isKey_name {h : Heap} {r : Ref} {n : List UInt8} (hn : IsName h r n) : isKey h r = true := by
  obtain ⟨s, src, len, h1, h2, h3, h4⟩ := hn
  exact isKey_iff.2 ⟨_, h1, isAtom_name h2 (by rw [h3]; exact h4)⟩

theorem rep_key {r : Ref} {v : Val} (hr : Rep e s r v) (ha : atom v = true) : ∃ k, v.key = some k ∧ KeyIs s.w.heap r k := by
  cases v with
  | none => exact ⟨.none, rfl, hr⟩
  | bool b => exact ⟨.bool b, rfl, hr⟩
  | int v => exact ⟨.int v, rfl, hr⟩
  | float x =>
    refine ⟨.float x, rfl, hr, ?_, ?_⟩
    · rw [graph_isNaN]
      unfold atom worth at ha
      cases hn : Num.isNaN x with
      | false => rfl
      | true => simp [hn] at ha
    · rw [graph_isZero]
      cases hz : Num.isZero x with
      | false => rfl
      | true =>
        have := worth_zero.2 hz
        unfold atom at ha
        simp [this] at ha
  | str t => exact ⟨.text _, rfl, name_text hr.1 hr.2⟩
  | _ => cases ha

theorem KeyIs.isKey {h : Heap} {r : Ref} {k : Key} (hk : KeyIs h r k) : isKey h r = true := by
  cases k with
  | text bs => exact isKey_name hk
  | float x => exact isKey_iff.2 ⟨_, hk.1, by simp [isAtom, hk.2.1, hk.2.2]⟩
  | _ => exact isKey_iff.2 ⟨_, hk, rfl⟩

theorem map_fine [Floats] (ok : S.Ok) {rs : List (Ref × Ref)} {es : List (Val × Val)} (hr : All2 (Rep2 e s) rs es)
    (hat : ∀ q ∈ es, atom q.1 = true) (hf : S.fine (keysIn es) = true) : S.pos s.w.heap (rs.map (·.1)) = true := by
  refine ok.fine _ _ _ (fun r hm => ?_) hf
  obtain ⟨p, hp, rfl⟩ := List.mem_map.1 hm
  have key : ∀ {rs : List (Ref × Ref)} {es : List (Val × Val)}, All2 (Rep2 e s) rs es → (∀ q ∈ es, atom q.1 = true) →
      ∀ p ∈ rs, ∃ k ∈ keysIn es, KeyIs s.w.heap p.1 k := by
    intro rs
    induction rs with
    | nil => intro es hr ha p hp; cases hp
    | cons a rs ih =>
      intro es hr ha p hp
      cases es with
      | nil => exact hr.elim
      | cons q es =>
        obtain ⟨k, h1, h2⟩ := rep_key hr.1.1 (ha q (List.mem_cons_self ..))
        have hk : keysIn (q :: es) = k :: keysIn es := by unfold keysIn; rw [List.filterMap_cons, h1]
        rw [hk]
        rcases List.mem_cons.1 hp with rfl | hp
        · exact ⟨k, List.mem_cons_self .., h2⟩
        · obtain ⟨k', h3, h4⟩ := ih hr.2 (fun q hq => ha q (List.mem_cons_of_mem _ hq)) p hp
          exact ⟨k', List.mem_cons_of_mem _ h3, h4⟩
  exact key hr hat p hp

theorem insertG_map {C : Config} {pos : Heap → List Ref → Bool} {col key v : Ref} {w : World} {es : List (Ref × Ref)}
    (hc : w.heap[col]? = some (.map es)) (hk : isKey w.heap key = true) (hp : pos w.heap (es.map (·.1)) = true) :
    insertG C pos col key v w = insertObj C col key v w := by
  unfold insertG
  rw [hc]
  dsimp only
  rw [hk, hp]
  rfl

/-! ## Operations -/

/-- The two layers do the same. -/
theorem Sim.swap {f g : World → Out World α} {y : R β} (h : Sim S D e s Q (VM.lift (LS S) f s) y)
    (hg : y ≠ .off → g s.w = f s.w) : Sim S D e s Q (VM.lift (LG S) g s) y := by
  have key : g s.w = f s.w → Sim S D e s Q (VM.lift (LG S) g s) y := by
    intro q
    rw [lift_LG]
    have : VM.lift (LS S) g s = VM.lift (LS S) f s := by unfold VM.lift; rw [q]
    rw [this]
    exact h
  cases y with
  | off => trivial
  | _ => exact key (hg nofun)

theorem Sim.hush {f : World → Out World α} {y : R β} (hi : Inv S e σ s) (h : Sim S D e s Q (VM.lift (LS S) f s) y)
    (hn : ∀ o, y ≠ .err o) (hm : y ≠ .more) :
    Sim S D e s Q (VM.lift (LG S) (fun w => if w.err then .ub else silent (f w)) s) y := by
  cases y with
  | off => trivial
  | err o => exact absurd rfl (hn o)
  | more => exact absurd rfl hm
  | ok σ' b =>
    refine Sim.swap (f := f) h fun _ => ?_
    obtain ⟨s', a, e', hx, -⟩ := h
    rw [if_neg (by rw [show s.w.err = false from hi.err]; exact Bool.false_ne_true)]
    unfold VM.lift at hx
    cases hf : f s.w with
    | ok w a =>
      rw [hf] at hx
      dsimp only at hx
      by_cases hp : w.err = true
      · rw [if_pos (show (LS S).pending w = true from hp)] at hx; cases hx
      · unfold silent
        dsimp only
        rw [if_neg hp]
    | err w => rw [hf] at hx; cases hx
    | ub => rw [hf] at hx; cases hx

theorem simG_select [Floats] (ok : S.Ok) (hi : Inv S e σ s) {col key : Ref} {x k : Val} (hx : Rep e s col x) (hk : Rep e s key k) :
    Sim S D e s Rep (lift (LG S) ((LG S).select col key) s) (select x k σ) := by
  refine Sim.swap (sim_select ok hi hx hk) fun hy => ?_
  show (if searched s.w.heap col && !isKey s.w.heap key then _ else _) = _
  rw [if_neg]
  · rfl
  intro hq
  rw [Bool.and_eq_true, Bool.not_eq_true'] at hq
  have nokey : atom k = false := by
    cases ha : atom k with
    | false => rfl
    | true =>
      obtain ⟨k', -, h⟩ := rep_key hk ha
      rw [h.isKey] at hq
      cases hq.2
  have other : ∀ {o : Obj}, s.w.heap[col]? = some o → (∀ es, o ≠ .map es) → o ≠ .opaque .closure → False := by
    intro o ho h1 h2
    have hq := hq.1
    unfold searched at hq
    rw [ho] at hq
    split at hq
    · rename_i h; cases h; exact h1 _ rfl
    · rename_i h; cases h; exact h2 rfl
    · cases hq
  apply hy
  unfold select
  cases x with
  | ref a =>
    dsimp only
    have hl : a < σ.cells.length := by rw [← hi.len]; exact (List.getElem?_eq_some_iff.1 hx).1
    obtain ⟨c, hc⟩ : ∃ c, σ.cells[a]? = some c := ⟨_, List.getElem?_eq_getElem hl⟩
    have hh := hi.cells a c col hc hx
    rw [hc]
    cases c with
    | list items =>
      obtain ⟨rs, hr, hrs⟩ := hh
      exact (other hr nofun nofun).elim
    | map es =>
      dsimp only
      rw [nokey]
      rfl
    | scope env => rfl
    | buffer bs => exact (other hh nofun nofun).elim
  | str t => exact (other hx.1 nofun nofun).elim
  | lib _ => exact (other hx.1 nofun nofun).elim
  | _ =>
    obtain ⟨o, ho, hb⟩ := bare_rep hi hx nofun nofun nofun
    exact (other ho (fun es h => by rw [h] at hb; exact hb) (fun h => by rw [h] at hb; rcases hb with h | h <;> cases h)).elim

theorem simG_insert [Floats] (ok : S.Ok) (hi : Inv S e σ s) {col key r : Ref} {x k v : Val} (hx : Rep e s col x)
    (hk : Rep e s key k) (hv : Rep e s r v) :
    Sim S D e s (fun _ _ _ _ => True) (lift (LG S) ((LG S).insert col key r) s) (insert S.fine x k v σ) := by
  refine Sim.swap (sim_insert ok hi hx hk hv) fun hy => ?_
  show insertG (std S.C) S.pos col key r s.w = insertObj (std S.C) col key r s.w
  cases hc : s.w.heap[col]? with
  | none => unfold insertG; rw [hc]
  | some o =>
    by_cases hm : ∃ es, o = .map es
    · obtain ⟨rs, rfl⟩ := hm
      unfold insert at hy
      cases x with
      | ref a =>
        dsimp only at hy
        have hl : a < σ.cells.length := by rw [← hi.len]; exact (List.getElem?_eq_some_iff.1 hx).1
        obtain ⟨c, hcell⟩ : ∃ c, σ.cells[a]? = some c := ⟨_, List.getElem?_eq_getElem hl⟩
        have hh := hi.cells a c col hcell hx
        rw [hcell] at hy
        cases c with
        | list items =>
          obtain ⟨rs', hr, -⟩ := hh
          rw [hc] at hr
          cases hr
        | map es =>
          dsimp only at hy
          obtain ⟨rs', hr, hrs, hat⟩ := hh
          rw [hc] at hr
          cases hr
          by_cases hcond : (atom k && S.fine (keysIn es)) = true
          · rw [Bool.and_eq_true] at hcond
            obtain ⟨k', -, h⟩ := rep_key hk hcond.1
            exact insertG_map hc h.isKey (map_fine ok hrs hat hcond.2)
          · rw [if_neg hcond] at hy
            exact absurd rfl hy
        | scope env => exact absurd rfl hy
        | buffer bs => rw [show s.w.heap[col]? = _ from hh] at hc; cases hc
      | str t => rw [show s.w.heap[col]? = _ from hx.1] at hc; cases hc
      | lib _ => rw [show s.w.heap[col]? = _ from hx.1] at hc; cases hc
      | _ =>
        obtain ⟨o, ho, hb⟩ := bare_rep hi hx nofun nofun nofun
        rw [hc] at ho
        cases ho
        exact hb.elim
    · unfold insertG
      rw [hc]
      cases o with
      | map es => exact absurd ⟨es, rfl⟩ hm
      | _ => rfl

theorem nameOk_good {n : Name} (h : goodName n = true) : nameOk n = true := by
  have hg : good n = true := h
  unfold nameOk
  rw [good_cstring hg]
  obtain ⟨s, src, len, h1, h2, h3, h4⟩ := name_alloc (w := ⟨[], false, fun _ => none, fun _ => none, fun _ => none, fun _ => 0, []⟩) (good_cstring hg) (good_nul hg)
  rw [alloc_get] at h1
  cases h1
  exact isAtom_name h2 (by rw [h3]; exact h4)

theorem simG_getVar [Floats] (ok : S.Ok) (hi : Inv S e σ s) {l : Ref} {c : Option Ref} {rs : List Ref} {a : Nat} {as : List Nat}
    (hl : At e l a) (hc : OChain s.w c rs) (hrs : All2 (At e) rs as) (n : Name) :
    Sim S D e s Rep (lift (LG S) ((LG S).getVar l c n) s) (readVar (a :: as ++ S.lib) n σ) := by
  rw [lift_LG]
  refine sim_getVar_calm ok hi hl hc hrs n fun hn r hr hcalm => ?_
  show (if s.w.err || !nameOk n then _ else quiet (VM.getVar (std S.C) l c n s.w)) = r
  have hr' : VM.getVar (std S.C) l c n s.w = r := hr
  rw [show s.w.err = false from hi.err, nameOk_good hn, hr']
  show quiet r = r
  unfold quiet
  cases r with
  | ok w a => dsimp only; rw [if_neg (by rw [show w.err = false from hcalm]; exact Bool.false_ne_true)]
  | err w => dsimp only; rw [if_neg (by rw [show w.err = false from hcalm]; exact Bool.false_ne_true)]
  | ub => exact hcalm.elim

theorem lookup_mem {β : Type} {n : Name} {v : β} : ∀ {l : List (Name × β)}, l.lookup n = some v → n ∈ l.map (·.1) :=
  fun h => List.mem_map.2 ⟨_, mem_of_lookup h, rfl⟩

theorem names_same {renv : List (Name × Ref)} : ∀ {env : List (Name × Val)}, All2 (RepVar e s) renv env →
    renv.map (·.1) = env.map (·.1) := by
  induction renv with
  | nil => intro env h; cases env with
    | nil => rfl
    | cons _ _ => exact h.elim
  | cons p renv ih => intro env h; cases env with
    | nil => exact h.elim
    | cons q env => rw [List.map_cons, List.map_cons, ih h.2, h.1.1]

theorem simG_setVar [Floats] (ok : S.Ok) (hi : Inv S e σ s) {l : Ref} {a : Nat} (hl : At e l a) (n : Name) {r : Ref} {v : Val}
    (hv : Rep e s r v) :
    Sim S D e s (fun _ _ _ _ => True) (lift (LG S) ((LG S).setVar l n r) s) (writeVar S.fine a n v σ) := by
  refine Sim.swap (sim_setVar ok hi hl n hv) fun hy => ?_
  unfold writeVar at hy
  cases hn : goodName n with
  | false => rw [hn] at hy; exact absurd rfl hy
  | true =>
    have hg : good n = true := hn
    rw [if_pos hn] at hy
    show ((outOf s.w (cstring n)).bind fun q w => insertG (std S.C) S.pos l (w.alloc (.str q)).2 r (w.alloc (.str q)).1) =
      (outOf s.w (cstring n)).bind fun q w => insertObj (std S.C) l (w.alloc (.str q)).2 r (w.alloc (.str q)).1
    rw [good_cstring hg]
    show insertG (std S.C) S.pos l (s.w.alloc (.str (ascii n))).2 r (s.w.alloc (.str (ascii n))).1 =
      insertObj (std S.C) l (s.w.alloc (.str (ascii n))).2 r (s.w.alloc (.str (ascii n))).1
    cases hcell : σ.cells[a]? with
    | none => rw [hcell] at hy; exact absurd rfl hy
    | some c =>
      cases c with
      | list _ => rw [hcell] at hy; exact absurd rfl hy
      | map _ => rw [hcell] at hy; exact absurd rfl hy
      | buffer _ => rw [hcell] at hy; exact absurd rfl hy
      | scope env =>
        rw [hcell] at hy
        dsimp only at hy
        by_cases hf : S.fine (namesIn env) = true
        case neg => rw [if_neg hf] at hy; exact absurd rfl hy
        obtain ⟨renv, ⟨es, he, hk, hfind⟩, henv⟩ := hi.cells a _ l hcell hl
        have hle := Le.alloc [] e s (.str (ascii n))
        have hes : (s.w.alloc (.str (ascii n))).1.heap[l]? = some (.map es) := by
          rw [alloc_heap, List.getElem?_append_left (get_lt he)]; exact he
        refine insertG_map hes (isKey_name (name_alloc (good_cstring hg) (good_nul hg))) (ok.fine _ _ _ (fun x hx => ?_) hf)
        obtain ⟨p, hp, rfl⟩ := List.mem_map.1 hx
        obtain ⟨m, hm⟩ := hk p hp
        refine ⟨.text m, ?_, hle.name hm⟩
        have ht : textOf s.w.heap p.1 = some m := IsName.textOf hm
        cases hq : es.find? fun e => decide (textOf s.w.heap e.1 = some m) with
        | none =>
          have := List.find?_eq_none.1 hq p hp
          rw [ht] at this
          exact absurd (decide_eq_true rfl) this
        | some q =>
          have h1 := hfind m
          rw [hq] at h1
          have h2 := lookup_mem h1.symm
          rw [names_same henv] at h2
          obtain ⟨y, hy1, hy2⟩ := List.mem_map.1 h2
          exact List.mem_map.2 ⟨y, hy1, by rw [hy2]⟩

theorem simG_native [Floats] (ok : S.Ok) (hi : Inv S e σ s) (p : Prim) {rs : List Ref} {vs : List Val} (hr : All2 (Rep e s) rs vs) :
    Sim S D e s Done (lift (LG S) ((LG S).native p.id rs) s) (p.run vs σ) := by
  have h := sim_native (D := D) ok hi p hr
  by_cases hp : p.id = 4
  · have hpp : p = .istypeof := by cases p with
      | istypeof => rfl
      | math f => exact absurd hp (by cases f <;> decide)
      | _ => exact absurd hp (by decide)
    subst hpp
    have ho : (∀ o, Prim.istypeof.run vs σ ≠ .err o) ∧ Prim.istypeof.run vs σ ≠ .more := by
      rcases vs with _ | ⟨t, _ | ⟨v, _ | ⟨_, _⟩⟩⟩
      · exact ⟨nofun, nofun⟩
      · exact ⟨nofun, nofun⟩
      · show (∀ o, B.bind (isA t v) (fun b => Pure.pure [Val.bool b]) σ ≠ .err o) ∧ B.bind (isA t v) (fun b => Pure.pure [Val.bool b]) σ ≠ .more
        unfold B.bind isA
        cases isOf σ typeDepth t v <;> exact ⟨nofun, nofun⟩
      · exact ⟨nofun, nofun⟩
    exact Sim.hush hi h ho.1 ho.2
  · refine Sim.swap h fun _ => ?_
    show (if p.id = 4 then _ else _) = _
    rw [if_neg hp]
    rfl

end

end Noja.VM.Book
