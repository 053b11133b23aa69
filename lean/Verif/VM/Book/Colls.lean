import Verif.VM.Book.Vars

/-!
# Lists, maps and texts do what the book says
-/

set_option linter.unusedVariables false
set_option linter.unusedSimpArgs false

namespace Noja.VM.Book

open Noja.Graph (Obj Kind Heap)

variable {S : Setup} {D : List Ref} {e e' : Emb} {σ σ' : Store} {s s' : SSt World}

/-! ## Keys -/

theorem name_text {h : Heap} {r : Ref} {t : List Nat} (hr : h[r]? = some (.str (Str.Spec.ofText t))) (ht : Plain t) :
    IsName h r (Utf8.Spec.encodeText t) := by
  have h1 := Str.C03_fromString t ht.valid []
  refine ⟨_, _, _, hr, h1, ?_, noNul_text ht⟩
  show (Utf8.Spec.encodeText t ++ [0]).take (Utf8.Spec.encodeText t).length = _
  exact List.take_left' rfl

theorem leBytes_length : ∀ n v, (IntKey.leBytes n v).length = n
  | 0, _ => rfl
  | n + 1, v => by simp [IntKey.leBytes, leBytes_length n]

theorem hash_atom {r : Ref} {v : Val} (hr : Rep e s r v) (ha : atom v = true) {fuel : Nat} (hf : 0 < fuel) :
    ∃ x, Graph.hash s.w.heap fuel r = .ok x := by
  obtain ⟨f, rfl⟩ : ∃ f, fuel = f + 1 := ⟨fuel - 1, by omega⟩
  cases v with
  | none => rw [Graph.hash_succ hr]; exact ⟨_, rfl⟩
  | bool b => rw [Graph.hash_succ hr]; exact ⟨_, rfl⟩
  | int v =>
    rw [Graph.hash_succ hr]
    exact Str.hashbytes_safe _ _ (by rw [leBytes_length]; exact Nat.le_refl 8) (by rw [leBytes_length]; decide)
  | float v =>
    rw [Graph.hash_succ hr]
    exact Str.hashbytes_safe _ _ (by rw [leBytes_length]; exact Nat.le_refl 8) (by rw [leBytes_length]; decide)
  | str t => exact hash_name (name_text hr.1 hr.2) (Nat.succ_pos f)
  | _ => cases ha

theorem equal_atoms {x y : Val} (hx : atom x = true) (hy : atom y = true) : equal x y σ = .ok σ (sameAtom x y) := by
  cases x <;> cases y <;> first | (cases hx; done) | (cases hy; done) | rfl

theorem compare_atoms (hi : Inv S e σ s) {a b : Ref} {x y : Val} (ha : Rep e s a x) (hb : Rep e s b y)
    (hx : atom x = true) (hy : atom y = true) : Graph.compare s.w.heap a b = .ok (sameAtom x y) := by
  have h := compare_sim hi ha hb
  rw [equal_atoms hx hy] at h
  exact h.2

theorem copy_atom {hit : Nat → Nat → Bool} {r : Ref} {v : Val} (hr : Rep e s r v) (ha : atom v = true) {fuel : Nat}
    (hf : 0 < fuel) : Graph.copy hit fuel s.w.heap r = .ok (s.w.heap, r) := by
  obtain ⟨f, rfl⟩ : ∃ f, fuel = f + 1 := ⟨fuel - 1, by omega⟩
  cases v with
  | none => rw [Graph.copy_succ _ hr]; rfl
  | bool b => rw [Graph.copy_succ _ hr]; rfl
  | int v => rw [Graph.copy_succ _ hr]; rfl
  | float v => rw [Graph.copy_succ _ hr]; rfl
  | str t => rw [Graph.copy_succ _ hr.1]; rfl
  | _ => cases ha

theorem intKey_rep (hi : Inv S e σ s) {r : Ref} {v : Val} (hr : Rep e s r v) :
    intKey s.w.heap r = match v with | .int i => some i | _ => none := by
  obtain ⟨o, ho, hn⟩ := num_rep hi hr
  obtain ⟨o', ho', hl⟩ := hr.looks hi
  rw [ho] at ho'
  cases ho'
  unfold intKey
  rw [ho]
  cases v with
  | int i => rw [show o = _ from hl]
  | _ =>
    cases o with
    | int j => cases hn
    | _ => rfl

theorem textOf_rep (hi : Inv S e σ s) {r : Ref} {v : Val} (hr : Rep e s r v) :
    textOf s.w.heap r = match v with | .str t => some (Utf8.Spec.encodeText t) | _ => none := by
  cases v with
  | str t => exact (name_text hr.1 hr.2).textOf
  | ref a =>
    obtain ⟨o, ho, hl⟩ := Rep.looks hi hr
    unfold textOf
    rw [ho]
    rcases hl with ⟨_, _, rfl, _⟩ | ⟨_, _, rfl, _⟩ | ⟨_, _, rfl, _⟩ | ⟨_, rfl, _⟩ <;> rfl
  | fn f c => unfold textOf; rw [hr.1]
  | prim p => unfold textOf; rw [hr.1]
  | lib _ => unfold textOf; rw [hr.1]
  | type t =>
    obtain ⟨o, ho, hl⟩ := RepTy.looks hr
    unfold textOf
    rw [ho]
    rcases hl.cases with ⟨_, rfl⟩ | rfl | ⟨_, _, rfl⟩ | ⟨_, rfl⟩ <;> rfl
  | _ => unfold textOf; rw [show s.w.heap[r]? = _ from hr]

/-! ## Maps -/

theorem lookup_map [Floats] (ok : S.Ok) (hi : Inv S e σ s) {key : Ref} {k : Val} (hk : Rep e s key k) (ha : atom k = true) :
    ∀ {rs : List (Ref × Ref)} {es : List (Val × Val)}, All2 (Rep2 e s) rs es → (∀ q ∈ es, atom q.1 = true) →
      ∃ o, Graph.lookup S.C.hit s.w.heap key rs false = .ok (o, false) ∧ Opt2 (Rep e s) o (lookupKey k es)
  | [], [], _, _ => ⟨none, rfl, trivial⟩
  | [], _ :: _, h, _ => h.elim
  | _ :: _, [], h, _ => h.elim
  | p :: rs, q :: es, ⟨h, hs⟩, hat => by
    have hc := compare_atoms hi hk h.1 ha (hat q (List.mem_cons_self ..))
    unfold Graph.lookup lookupKey
    rw [if_pos (ok.conf.hit _ _), hc]
    cases hq : sameAtom k q.1 with
    | true => exact ⟨some p.2, rfl, h.2⟩
    | false =>
      have := lookup_map ok hi hk ha hs fun q hq => hat q (List.mem_cons_of_mem _ hq)
      exact this

theorem findKey_map [Floats] (ok : S.Ok) (hi : Inv S e σ s) {key v : Ref} {k x : Val} (hk : Rep e s key k) (ha : atom k = true)
    (hv : Rep e s v x) :
    ∀ {rs : List (Ref × Ref)} {es : List (Val × Val)} (i : Nat), All2 (Rep2 e s) rs es → (∀ q ∈ es, atom q.1 = true) →
      (Graph.findKey S.C.hit s.w.heap key rs i = .ok none ∧ putKey k x es = es ++ [(k, x)]) ∨
      ∃ j p, Graph.findKey S.C.hit s.w.heap key rs i = .ok (some (i + j)) ∧ rs[j]? = some p ∧
        All2 (Rep2 e s) (rs.set j (p.1, v)) (putKey k x es)
  | [], [], i, _, _ => .inl ⟨rfl, rfl⟩
  | [], _ :: _, _, h, _ => h.elim
  | _ :: _, [], _, h, _ => h.elim
  | p :: rs, q :: es, i, ⟨h, hs⟩, hat => by
    have hc := compare_atoms hi hk h.1 ha (hat q (List.mem_cons_self ..))
    have e1 : Graph.findKey S.C.hit s.w.heap key (p :: rs) i =
        if sameAtom k q.1 then .ok (some i) else Graph.findKey S.C.hit s.w.heap key rs (i + 1) := by
      conv => lhs; unfold Graph.findKey
      rw [if_pos (ok.conf.hit _ _), hc]
      rfl
    rw [e1]
    unfold putKey
    cases hq : sameAtom k q.1 with
    | true =>
      refine .inr ⟨0, p, rfl, rfl, ?_⟩
      exact ⟨⟨h.1, hv⟩, hs⟩
    | false =>
      rcases findKey_map ok hi hk ha hv (i + 1) hs fun q hq => hat q (List.mem_cons_of_mem _ hq) with ⟨a, b⟩ | ⟨j, p', a, b, c⟩
      · left
        refine ⟨a, ?_⟩
        show q :: putKey k x es = _
        rw [b]
        rfl
      · right
        refine ⟨j + 1, p', ?_, b, h, c⟩
        show Graph.findKey S.C.hit s.w.heap key rs (i + 1) = _
        rw [a, Nat.add_assoc, Nat.add_comm 1 j]

theorem putKey_atoms {k x : Val} (ha : atom k = true) : ∀ {es : List (Val × Val)}, (∀ q ∈ es, atom q.1 = true) →
    ∀ q ∈ putKey k x es, atom q.1 = true
  | [], _, q, hq => by rw [List.mem_singleton.1 hq]; exact ha
  | p :: es, h, q, hq => by
    unfold putKey at hq
    split at hq
    · rcases List.mem_cons.1 hq with rfl | hq
      · exact h p (List.mem_cons_self ..)
      · exact h q (List.mem_cons_of_mem _ hq)
    · rcases List.mem_cons.1 hq with rfl | hq
      · exact h _ (List.mem_cons_self ..)
      · exact putKey_atoms ha (fun q hq => h q (List.mem_cons_of_mem _ hq)) q hq

theorem insert_map [Floats] (ok : S.Ok) (hi : Inv S e σ s) {m key v : Ref} {k x : Val} (hk : Rep e s key k) (ha : atom k = true)
    (hv : Rep e s v x) {rs : List (Ref × Ref)} {es : List (Val × Val)} (hm : s.w.heap[m]? = some (.map rs))
    (hr : All2 (Rep2 e s) rs es) (hat : ∀ q ∈ es, atom q.1 = true) :
    ∃ rs', insertObj (std S.C) m key v s.w = .ok (s.w.withHeap (s.w.heap.set m (.map rs'))) () ∧
      All2 (Rep2 e s) rs' (putKey k x es) := by
  have hf : 0 < (std S.C).fuel := Nat.lt_trans (by decide) ok.conf.fuel
  obtain ⟨y, hy⟩ := hash_atom hk ha hf
  have key' : ∃ rs', Graph.mapInsert S.C.hit (fun h => Graph.hash h S.C.fuel) (Graph.copy S.C.hit S.C.fuel) s.w.heap m key v
      = .ok (s.w.heap.set m (.map rs')) ∧ All2 (Rep2 e s) rs' (putKey k x es) := by
    unfold Graph.mapInsert
    rw [rd_ok_iff.mpr hm, Exec.bind_ok]
    dsimp only
    rw [show Graph.hash s.w.heap S.C.fuel key = .ok y from hy, Exec.bind_ok]
    rcases findKey_map ok hi hk ha hv 0 hr hat with ⟨a, b⟩ | ⟨j, p, a, b, c⟩
    · rw [a, Exec.bind_ok]
      dsimp only
      rw [copy_atom hk ha (show 0 < S.C.fuel from hf), Exec.bind_ok]
      refine ⟨_, rfl, ?_⟩
      rw [b]
      exact hr.append ⟨⟨hk, hv⟩, trivial⟩
    · rw [a, Exec.bind_ok]
      dsimp only
      rw [Nat.zero_add, b]
      exact ⟨_, rfl, c⟩
  obtain ⟨rs', h1, h2⟩ := key'
  refine ⟨rs', ?_, h2⟩
  unfold insertObj
  rw [hm]
  dsimp only
  have h1' : Graph.mapInsert (std S.C).hit (fun h => Graph.hash h (std S.C).fuel)
      (Graph.copy (std S.C).hit (std S.C).fuel) s.w.heap m key v = _ := h1
  rw [h1']
  rfl

/-! ## Selection -/

theorem err_false {w : World} (h : w.err = false) : { w with err := false } = w := by
  cases w
  simp only at h
  subst h
  rfl

theorem selectI_eq (hi : Inv S e σ s) {C : Config} {col key : Ref} :
    selectI C col key s.w = (selectObj C (selFuel s.w) col key s.w).bind fun v u => .ok { u with err := false } (v.getD 0) := by
  unfold selectI
  rw [err_false hi.err, hi.err]

theorem selectObj_list {C : Config} {fuel : Nat} {col key : Ref} {w : World} {items : List Ref}
    (h : w.heap[col]? = some (.list items)) : selectObj C (fuel + 1) col key w =
      match intKey w.heap key with
      | some i =>
        if toI32 i < 0 ∨ toI32 i ≥ items.length then .ok { w with err := true } none
        else .ok w items[(toI32 i).toNat]?
      | none => .ok { w with err := true } none := by
  conv => lhs; unfold selectObj
  rw [h]
  rfl

theorem selectObj_map {C : Config} {fuel : Nat} {col key : Ref} {w : World} {es : List (Ref × Ref)}
    (h : w.heap[col]? = some (.map es)) : selectObj C (fuel + 1) col key w =
      match Graph.hash w.heap C.fuel key with
      | .ok _ =>
        match Graph.lookup C.hit w.heap key es w.err with
        | .ok (v, e) => .ok { w with err := e } v
        | _ => .ub
      | _ => .ub := by
  conv => lhs; unfold selectObj
  rw [h]
  rfl

theorem selectObj_str {C : Config} {fuel : Nat} {col key : Ref} {w : World} {t : Str.Str}
    (h : w.heap[col]? = some (.str t)) : selectObj C (fuel + 1) col key w =
      match Str.select t (intKey w.heap key) with
      | .ok t => .ok (w.alloc (.str t)).1 (some (w.alloc (.str t)).2)
      | .err => .ok { w with err := true } none
      | _ => .ub := by
  conv => lhs; unfold selectObj
  rw [h]
  rfl

theorem selectObj_smap {C : Config} {fuel : Nat} {col key : Ref} {w : World}
    (h : w.heap[col]? = some (.opaque .smap)) : selectObj C (fuel + 1) col key w =
      match textOf w.heap key with
      | none => .ok w none
      | some n =>
        match C.slot (w.tab col) n with
        | none => .ok w none
        | some f => (f w).bind fun r w => .ok w (some r) := by
  conv => lhs; unfold selectObj
  rw [h]
  rfl

/-- Objects that are no collections. -/
def Bare : Obj → Prop
  | .none | .bool _ | .int _ | .float _ | .type _ | .any | .sum _ _ | .nullable _ => True
  | .opaque k => k = .func ∨ k = .nfunc
  | _ => False

theorem bare_rep (hi : Inv S e σ s) {r : Ref} {v : Val} (hr : Rep e s r v) (h1 : ∀ a, v ≠ .ref a) (h2 : ∀ t, v ≠ .str t)
    (h3 : ∀ l, v ≠ .lib l) : ∃ o, s.w.heap[r]? = some o ∧ Bare o := by
  obtain ⟨o, ho, hl⟩ := hr.looks hi
  refine ⟨o, ho, ?_⟩
  cases v with
  | ref a => exact (h1 a rfl).elim
  | str t => exact (h2 t rfl).elim
  | lib _ => exact (h3 _ rfl).elim
  | type t => rcases TyLooks.cases hl with ⟨_, rfl⟩ | rfl | ⟨_, _, rfl⟩ | ⟨_, rfl⟩ <;> trivial
  | fn f c => rw [show o = _ from hl]; exact .inl rfl
  | prim p => rw [show o = _ from hl]; exact .inr rfl
  | _ => rw [show o = _ from hl]; trivial

theorem Bare.kind {o : Obj} (h : Bare o) : o.kind ≠ .buffer := by
  cases o with
  | «opaque» k => rcases h with rfl | rfl <;> nofun
  | list _ => exact h.elim
  | map _ => exact h.elim
  | str _ => exact h.elim
  | buffer _ => exact h.elim
  | _ => nofun

theorem selectObj_bare {C : Config} {fuel : Nat} {col key : Ref} {w : World} {o : Obj}
    (h : w.heap[col]? = some o) (hb : Bare o) : selectObj C (fuel + 1) col key w = C.selectX o key w := by
  conv => lhs; unfold selectObj
  rw [h]
  cases o with
  | «opaque» k => rcases hb with rfl | rfl <;> rfl
  | list _ => exact hb.elim
  | map _ => exact hb.elim
  | str _ => exact hb.elim
  | buffer _ => exact hb.elim
  | _ => rfl

theorem std_selectX {C : Config} {o : Obj} {k : Ref} {w : World} (h : o.kind ≠ .buffer) :
    (std C).selectX o k w = C.selectX o k w := by
  cases o with
  | buffer _ => exact (h rfl).elim
  | _ => rfl

theorem std_insertX {C : Config} {o : Obj} {a b c : Ref} {w : World} (h : o.kind ≠ .buffer) :
    (std C).insertX o a b c w = C.insertX o a b c w := by
  cases o with
  | buffer _ => exact (h rfl).elim
  | _ => rfl

def Lib.table : Lib → List (Name × Item)
  | .strings => stringTable
  | .math => mathTable
  | .buffers => bufferTable

def libs : List Lib := [.strings, .math, .buffers]

theorem libs_all (l : Lib) : l ∈ libs := by cases l <;> decide

theorem lib_table : (libs.all fun l => l.items.all fun p =>
    match l.table.lookup (Utf8.Spec.encodeText p.1) with
    | some i => Item.means i p.2
    | none => false) = true := by decide +kernel

/-- The names in the table of the mathematical library. -/
theorem table_lib : (mathTable.all fun p => Lib.math.items.any fun q =>
    (Utf8.Spec.encodeText q.1 == p.1) && decide (Plain q.1)) = true := by decide +kernel

theorem lib_slot {C : Config} {l : Lib} {n : Name} {i : Item} (h : l.table.lookup n = some i) :
    (std C).slot l.id n = some i.value := by
  cases l with
  | strings =>
    show some (((stringTable.lookup n).map Item.value).getD fun _ => .ub) = _
    rw [show stringTable.lookup n = some i from h]; rfl
  | math =>
    show (mathTable.lookup n).map Item.value = _
    rw [show mathTable.lookup n = some i from h]; rfl
  | buffers =>
    show some (((bufferTable.lookup n).map Item.value).getD fun _ => .ub) = _
    rw [show bufferTable.lookup n = some i from h]; rfl

theorem fits32_i32 {i : Int} (h : fits32 i = true) : IsI32 i := by
  unfold fits32 at h
  have := of_decide_eq_true h
  unfold IsI32
  omega

theorem mem_of_lookup' {α β : Type} [BEq α] [LawfulBEq α] {n : α} {v : β} : ∀ {l : List (α × β)}, l.lookup n = some v → (n, v) ∈ l
  | [], h => by cases h
  | p :: l, h => by
    rw [List.lookup_cons] at h
    cases hb : n == p.1 with
    | true =>
      rw [hb] at h
      cases h
      rw [eq_of_beq hb]
      exact List.mem_cons_self ..
    | false => rw [hb] at h; exact List.mem_cons_of_mem _ (mem_of_lookup' h)

theorem sim_select [Floats] (ok : S.Ok) (hi : Inv S e σ s) {col key : Ref} {x k : Val} (hx : Rep e s col x) (hk : Rep e s key k) :
    Sim S D e s Rep (lift (LS S) ((LS S).select col key) s) (select x k σ) := by
  have sel : (LS S).select col key s.w = _ := selectI_eq (C := std S.C) hi
  have done : ∀ {w : World} {o : Option Ref} {v : Val}, selectObj (std S.C) (selFuel s.w) col key s.w = .ok w o →
      { w with err := false } = s.w → Rep e s (o.getD 0) v →
      Sim S D e s Rep (lift (LS S) ((LS S).select col key) s) (.ok σ v) := by
    intro w o v h1 h2 h3
    rw [h1] at sel
    refine Sim.lift (w := s.w) (a := o.getD 0) ?_ (.refl _ _ _) hi h3
    rw [sel]
    show Out.ok _ _ = _
    rw [h2]
  have miss : selectObj (std S.C) (selFuel s.w) col key s.w = .ok { s.w with err := true } none →
      Sim S D e s Rep (lift (LS S) ((LS S).select col key) s) (.ok σ .none) := fun h =>
    done (o := none) h (err_false hi.err) (rep_none e s)
  have ik := intKey_rep hi hk
  unfold select
  cases x with
  | ref a =>
    dsimp only
    have hl : a < σ.cells.length := by rw [← hi.len]; exact (List.getElem?_eq_some_iff.1 hx).1
    obtain ⟨c, hc⟩ : ∃ c, σ.cells[a]? = some c := ⟨_, List.getElem?_eq_getElem hl⟩
    have hh := hi.cells a c col hc hx
    rw [hc]
    cases c with
    | list items =>
      dsimp only
      obtain ⟨rs, hr, hrs⟩ := hh
      have so := selectObj_list (C := std S.C) (fuel := s.w.heap.length) (key := key) hr
      rw [ik] at so
      cases k with
      | int i =>
        dsimp only at so ⊢
        by_cases hf : fits32 i = true
        · rw [if_pos hf]
          rw [toI32_of_isI32 (fits32_i32 hf), hrs.length] at so
          by_cases h0 : 0 ≤ i
          · rw [if_pos h0]
            cases hg : items[i.toNat]? with
            | some v =>
              have hlt := (List.getElem?_eq_some_iff.1 hg).1
              rw [if_neg (by omega)] at so
              obtain ⟨r, h1, h2⟩ := hrs.get hg
              rw [h1] at so
              exact done so (err_false hi.err) h2
            | none =>
              have hge := List.getElem?_eq_none_iff.1 hg
              rw [if_pos (by omega)] at so
              exact miss so
          · rw [if_neg h0]
            rw [if_pos (by omega)] at so
            exact miss so
        · rw [if_neg hf]; trivial
      | _ => exact miss so
    | map es =>
      dsimp only
      obtain ⟨rs, hr, hrs, hat⟩ := hh
      have so := selectObj_map (C := std S.C) (fuel := s.w.heap.length) (key := key) hr
      cases ha : atom k with
      | false => trivial
      | true =>
        rw [if_pos rfl]
        obtain ⟨y, hy⟩ := hash_atom hk ha (show 0 < (std S.C).fuel from Nat.lt_trans (by decide) ok.conf.fuel)
        obtain ⟨o, h1, h2⟩ := lookup_map ok hi hk ha hrs hat
        have h1' : Graph.lookup (std S.C).hit s.w.heap key rs s.w.err = .ok (o, false) := by rw [hi.err]; exact h1
        rw [hy, h1'] at so
        refine done so (by dsimp only; exact err_false hi.err) ?_
        cases o with
        | none =>
          cases hq : lookupKey k es with
          | none => exact rep_none e s
          | some v => rw [hq] at h2; exact h2.elim
        | some r =>
          cases hq : lookupKey k es with
          | none => rw [hq] at h2; exact h2.elim
          | some v => rw [hq] at h2; exact h2
    | scope env => trivial
    | buffer bs =>
      dsimp only
      have so : selectObj (std S.C) (selFuel s.w) col key s.w = bufSelect bs key s.w := by
        show selectObj (std S.C) (s.w.heap.length + 1) col key s.w = _
        conv => lhs; unfold selectObj
        rw [show s.w.heap[col]? = some (.buffer bs) from hh]
        rfl
      unfold bufSelect at so
      rw [ik] at so
      cases k with
      | int i =>
        dsimp only at so ⊢
        by_cases hf : fits32 i = true
        · rw [if_pos hf]
          rw [toI32_of_isI32 (fits32_i32 hf)] at so
          by_cases h0 : 0 ≤ i
          · rw [if_pos h0]
            rw [if_neg (by omega)] at so
            cases hg : bs[i.toNat]? with
            | some b =>
              rw [hg] at so
              dsimp only at so
              refine sim_mk ok hi (o := .int b.toNat) ?_ fun s' r hr => hr
              rw [sel, so]
              show Out.ok _ _ = _
              rw [err_false (w := (s.w.alloc _).1) hi.err]
              rfl
            | none =>
              rw [hg] at so
              exact miss so
          · rw [if_neg h0]
            rw [if_pos (by omega)] at so
            exact miss so
        · rw [if_neg hf]; trivial
      | _ => exact miss so
  | str t =>
    dsimp only
    obtain ⟨hx, ht⟩ := hx
    have so := selectObj_str (C := std S.C) (fuel := s.w.heap.length) (key := key) hx
    rw [ik] at so
    cases k with
    | int i =>
      dsimp only at so ⊢
      by_cases hf : fits32 i = true ∧ t.length < 2 ^ 31
      · rw [if_pos hf]
        obtain ⟨c1, c2, c3⟩ := Str.C03_select_partial t ht.valid hf.2
        by_cases h0 : 0 ≤ i
        · rw [if_pos h0]
          cases hg : t[i.toNat]? with
          | some v =>
            obtain ⟨hlt, hv⟩ := List.getElem?_eq_some_iff.1 hg
            have := c1 i.toNat hlt
            rw [hv, show ((i.toNat : Nat) : Int) = i by omega] at this
            rw [this] at so
            dsimp only at so
            refine sim_mk ok hi (o := .str (Str.Spec.ofText [v])) ?_ fun s' r hr => ⟨hr, fun c hc => ?_⟩
            · rw [sel]
              show (selectObj (std S.C) (s.w.heap.length + 1) col key s.w).bind _ = _
              rw [so]
              show Out.ok _ _ = _
              rw [err_false (w := (s.w.alloc _).1) hi.err]
              rfl
            · rw [List.mem_singleton.1 hc, ← hv]; exact ht _ (List.getElem_mem _)
          | none =>
            have hge := List.getElem?_eq_none_iff.1 hg
            rw [c2 i (fits32_i32 hf.1) (by omega)] at so
            exact miss so
        · rw [if_neg h0]
          rw [c2 i (fits32_i32 hf.1) (by omega)] at so
          exact miss so
      · rw [if_neg hf]; trivial
    | _ => exact miss so
  | lib l =>
    dsimp only
    obtain ⟨hx, htab⟩ := hx
    have so := selectObj_smap (C := std S.C) (fuel := s.w.heap.length) (key := key) hx
    rw [textOf_rep hi hk] at so
    cases k with
    | str n =>
      dsimp only at so ⊢
      cases hl : l.items.lookup n with
      | none =>
        by_cases hm : l = .math
        · subst hm
          dsimp only
          rw [if_pos rfl]
          have hno : mathTable.lookup (Utf8.Spec.encodeText n) = none := by
            cases hq : mathTable.lookup (Utf8.Spec.encodeText n) with
            | none => rfl
            | some i =>
              obtain ⟨q, hq1, hq2⟩ := List.any_eq_true.1 (List.all_eq_true.1 table_lib _ (mem_of_lookup' hq))
              rw [Bool.and_eq_true] at hq2
              have hn : n = q.1 := (encodeText_inj (of_decide_eq_true hq2.2) hk.2 (eq_of_beq hq2.1)).symm
              rw [List.lookup_eq_none_iff] at hl
              have := hl q hq1
              rw [hn] at this
              simp at this
          have hsl : (std S.C).slot (s.w.tab col) (Utf8.Spec.encodeText n) = none := by
            rw [htab]
            show (mathTable.lookup (Utf8.Spec.encodeText n)).map Item.value = _
            rw [hno]
            rfl
          rw [hsl] at so
          exact done so (err_false hi.err) (rep_none e s)
        · dsimp only
          rw [if_neg hm]
          trivial
      | some p =>
        have hck := List.all_eq_true.1 (List.all_eq_true.1 lib_table l (libs_all l)) _ (mem_of_lookup' hl)
        dsimp only at hck ⊢
        cases hq : l.table.lookup (Utf8.Spec.encodeText n) with
        | none => rw [hq] at hck; cases hck
        | some i =>
          rw [hq] at hck
          have hsl : (std S.C).slot (s.w.tab col) (Utf8.Spec.encodeText n) = some i.value := by
            rw [htab]
            exact lib_slot hq
          rw [hsl] at so
          obtain ⟨w', r, hw, hl', hi', hrv⟩ := item_value (D := D) ok hi hck
          dsimp only at so
          rw [hw] at so
          refine Sim.lift (w := w') (a := r) ?_ hl' hi' hrv
          rw [sel]
          show (selectObj (std S.C) (s.w.heap.length + 1) col key s.w).bind _ = _
          rw [so]
          show Out.ok _ _ = _
          rw [err_false (w := w') hi'.err]
          rfl
    | _ => exact done so (err_false hi.err) (rep_none e s)
  | _ =>
    obtain ⟨o, ho, hb⟩ := bare_rep hi hx nofun nofun nofun
    have so := selectObj_bare (C := std S.C) (fuel := s.w.heap.length) (key := key) ho hb
    exact miss (so.trans ((std_selectX hb.kind).trans (ok.selectX o key s.w hb.kind)))

/-! ## Insertion -/

theorem list_ge {w : World} {x : Ref} {es : List Nat} (h : w.heap[x]? = some (.list es)) : statics.length ≤ x := by
  refine Nat.le_of_not_lt fun hlt => ?_
  rw [heap_static w x (by exact hlt)] at h
  have hmem : ∀ o ∈ statics, ∀ es, o ≠ Obj.list es := by
    intro o ho es
    simp [statics, kinds] at ho
    rcases ho with rfl | rfl | rfl | rfl | rfl | rfl | rfl | rfl | rfl | rfl | rfl | rfl | rfl | rfl | rfl | rfl | rfl | rfl | rfl | rfl | rfl <;> simp
  exact hmem _ (List.mem_of_getElem? h) es rfl

theorem buffer_ge {w : World} {x : Ref} {bs : List UInt8} (h : w.heap[x]? = some (.buffer bs)) : statics.length ≤ x := by
  refine Nat.le_of_not_lt fun hlt => ?_
  rw [heap_static w x (by exact hlt)] at h
  have hmem : ∀ o ∈ statics, ∀ es, o ≠ Obj.buffer es := by
    intro o ho es
    simp [statics, kinds] at ho
    rcases ho with rfl | rfl | rfl | rfl | rfl | rfl | rfl | rfl | rfl | rfl | rfl | rfl | rfl | rfl | rfl | rfl | rfl | rfl | rfl | rfl | rfl <;> simp
  exact hmem _ (List.mem_of_getElem? h) bs rfl

/-- The object of a cell was changed. -/
theorem sim_update [Floats] (ok : S.Ok) (hi : Inv S e σ s) {a : Nat} {r : Ref} {c : Cell} {o o' : Obj} (ha : At e r a)
    (ho : s.w.heap[r]? = some o) (hk : o.kind = .list ∨ o.kind = .map ∨ o.kind = .buffer) (hs : statics.length ≤ r)
    {f : World → Out World Unit} (hf : f s.w = .ok (s.w.withHeap (s.w.heap.set r o')) ())
    (hc : Holds e ⟨s.w.withHeap (s.w.heap.set r o'), s.funs⟩ r c) :
    Sim S D e s (fun _ _ _ _ => True) (lift (LS S) f s) (setCell a c σ) := by
  have hm : r ∈ e := List.mem_of_getElem? ha
  refine Sim.lift hf (.set ho hk (.inl hm) hs) (hi.upd ok (.set ho hk (.inl hm) hs) ha (fun x hx hne => ?_) hc
    hi.err rfl) trivial
  show (s.w.withHeap (s.w.heap.set r o')).heap[x]? = _
  rw [heap_set hs, List.getElem?_set_ne (Ne.symm hne)]

theorem set_get {w : World} {r : Ref} {o o' : Obj} (ho : w.heap[r]? = some o) (hs : statics.length ≤ r) :
    (w.withHeap (w.heap.set r o')).heap[r]? = some o' := by
  rw [heap_set hs, List.getElem?_set_self (get_lt ho)]

theorem insertObj_list {C : Config} {col key v : Ref} {w : World} {items : List Ref}
    (h : w.heap[col]? = some (.list items)) : insertObj C col key v w =
      match intKey w.heap key with
      | some i =>
        if toI32 i < 0 ∨ toI32 i > items.length then .err w
        else if toI32 i = items.length then .ok (w.withHeap (w.heap.set col (.list (items ++ [v])))) ()
        else .ok (w.withHeap (w.heap.set col (.list (items.set (toI32 i).toNat v)))) ()
      | none => .err w := by
  unfold insertObj
  rw [h]
  rfl

theorem sim_insert [Floats] (ok : S.Ok) (hi : Inv S e σ s) {col key r : Ref} {x k v : Val} (hx : Rep e s col x)
    (hk : Rep e s key k) (hv : Rep e s r v) :
    Sim S D e s (fun _ _ _ _ => True) (lift (LS S) ((LS S).insert col key r) s) (insert S.fine x k v σ) := by
  have ik := intKey_rep hi hk
  have flat : ∀ {o : Obj}, s.w.heap[col]? = some o → ((∃ t, o = .str t) ∨ o = .opaque .smap ∨ Bare o) →
      Sim S D e s (fun _ _ _ _ => True) (lift (LS S) ((LS S).insert col key r) s) (.err σ.out : R Unit) := by
    intro o ho hq
    have hb : o.kind ≠ .buffer := by
      rcases hq with ⟨_, rfl⟩ | rfl | hb
      · nofun
      · nofun
      · exact hb.kind
    have h1 : (LS S).insert col key r s.w = S.C.insertX o col key r s.w := by
      rw [← std_insertX hb]
      show insertObj (std S.C) col key r s.w = _
      unfold insertObj
      rw [ho]
      rcases hq with ⟨_, rfl⟩ | rfl | hb
      · rfl
      · rfl
      · cases o with
        | list _ => exact hb.elim
        | map _ => exact hb.elim
        | _ => rfl
    exact Sim.liftErr hi (h1.trans (ok.insertX _ _ _ _ _ hb)) rfl
  unfold insert
  cases x with
  | ref a =>
    dsimp only
    have hl : a < σ.cells.length := by rw [← hi.len]; exact (List.getElem?_eq_some_iff.1 hx).1
    obtain ⟨c, hc⟩ : ∃ c, σ.cells[a]? = some c := ⟨_, List.getElem?_eq_getElem hl⟩
    have hh := hi.cells a c col hc hx
    have hm : col ∈ e := List.mem_of_getElem? hx
    rw [hc]
    cases c with
    | list items =>
      dsimp only
      obtain ⟨rs, hr, hrs⟩ := hh
      have hs := list_ge hr
      have io : (LS S).insert col key r s.w = _ := insertObj_list (C := std S.C) (key := key) (v := r) hr
      rw [ik] at io
      have le : ∀ o', Le [] e s e ⟨s.w.withHeap (s.w.heap.set col o'), s.funs⟩ := fun o' =>
        .set hr (.inl rfl) (.inl hm) hs
      cases k with
      | int i =>
        dsimp only at io ⊢
        by_cases hf : fits32 i = true
        · rw [if_pos hf]
          rw [toI32_of_isI32 (fits32_i32 hf), hrs.length] at io
          by_cases h1 : 0 ≤ i ∧ i < items.length
          · rw [if_pos h1]
            rw [if_neg (by omega), if_neg (by omega)] at io
            refine sim_update ok hi hx hr (.inl rfl) hs io ⟨_, set_get hr hs, ?_⟩
            exact Rep.all (All2.set hv i.toNat hrs) (le _)
          · rw [if_neg h1]
            by_cases h2 : i = items.length
            · rw [if_pos h2]
              rw [if_neg (by omega), if_pos h2] at io
              refine sim_update ok hi hx hr (.inl rfl) hs io ⟨_, set_get hr hs, ?_⟩
              exact Rep.all (hrs.append ⟨hv, trivial⟩) (le _)
            · rw [if_neg h2]
              rw [if_pos (by omega)] at io
              exact Sim.liftErr hi io rfl
        · rw [if_neg hf]; trivial
      | _ => exact Sim.liftErr hi io rfl
    | map es =>
      dsimp only
      obtain ⟨rs, hr, hrs, hat⟩ := hh
      have hs := map_ge hr
      cases ha : atom k with
      | false => trivial
      | true =>
        cases hfine : S.fine (keysIn es) with
        | false => trivial
        | true =>
        rw [Bool.and_self, if_pos rfl]
        obtain ⟨rs', h1, h2⟩ := insert_map ok hi hk ha hv hr hrs hat
        refine sim_update ok hi hx hr (.inr (.inl rfl)) hs h1 ⟨_, set_get hr hs, ?_, putKey_atoms ha hat⟩
        exact h2.imp fun _ _ h => ⟨h.1.le (D := []) (.set hr (.inr (.inl rfl)) (.inl hm) hs), h.2.le (D := []) (.set hr (.inr (.inl rfl)) (.inl hm) hs)⟩
    | scope env => trivial
    | buffer bs =>
      dsimp only
      have hr : s.w.heap[col]? = some (.buffer bs) := hh
      have hs := buffer_ge hr
      have io : (LS S).insert col key r s.w = bufInsert bs col key r s.w := by
        show insertObj (std S.C) col key r s.w = _
        unfold insertObj
        rw [hr]
        rfl
      unfold bufInsert at io
      rw [ik, intKey_rep hi hv] at io
      cases k with
      | int i =>
        cases v with
        | int b =>
          dsimp only at io ⊢
          by_cases hf : fits32 i = true
          · rw [if_pos hf]
            rw [toI32_of_isI32 (fits32_i32 hf)] at io
            by_cases h1 : (0 ≤ i ∧ i < bs.length) ∧ 0 ≤ b ∧ b ≤ 255
            · rw [if_pos h1]
              rw [if_neg (by omega), if_neg (by omega)] at io
              exact sim_update ok hi hx hr (.inr (.inr rfl)) hs io (set_get hr hs)
            · rw [if_neg h1]
              refine Sim.liftErr hi (w := s.w) ?_ rfl
              rw [io]
              by_cases h2 : i < 0 ∨ i ≥ bs.length
              · rw [if_pos h2]
              · rw [if_neg h2, if_pos (by omega)]
          · rw [if_neg hf]; trivial
        | _ => exact Sim.liftErr hi io rfl
      | _ => exact Sim.liftErr hi io rfl
  | str t => exact flat hx.1 (.inl ⟨_, rfl⟩)
  | lib _ => exact flat hx.1 (.inr (.inl rfl))
  | _ =>
    obtain ⟨o, ho, hb⟩ := bare_rep hi hx nofun nofun nofun
    exact flat ho (.inr (.inr hb))

end Noja.VM.Book
