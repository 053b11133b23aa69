import Verif.VM.Guard

/-!
# The watched layer is defined where the guarded layer is
-/

set_option linter.unusedVariables false
set_option linter.unusedSimpArgs false

namespace Noja.VM

open Noja.Graph (Obj Kind Heap)

variable {α β : Type} {B : Config}

theorem allPlaced_congr {K V : Type} {hash hash' : K → BitVec 32} {m : Map.MObj K V} : ∀ (n i : Nat),
    (∀ j k, i ≤ j → j < i + n → m.keys[j]? = some (some k) → hash k = hash' k) →
    Map.allPlaced hash m n i = Map.allPlaced hash' m n i
  | 0, _, _ => rfl
  | n + 1, i, h => by
    rw [Map.allPlaced, Map.allPlaced]
    split
    · rename_i k hk
      rw [h i k (Nat.le_refl _) (by omega) hk, allPlaced_congr n (i + 1) fun j k a b => h j k (by omega) (by omega)]
    · rfl

theorem distinct_keys {h : Heap} : ∀ {es : List (Nat × Nat)}, Map.Distinct (keyAt h) es →
    ((es.map (·.1)).map (keyAt h)).Nodup
  | [], _ => List.nodup_nil
  | p :: es, hd => by
    have hd := List.pairwise_cons.1 hd
    refine List.nodup_cons.2 ⟨fun q => ?_, distinct_keys hd.2⟩
    simp only [List.mem_map] at q
    obtain ⟨a, ⟨y, hy, rfl⟩, q⟩ := q
    exact hd.1 y hy q.symm

/-- A map that meets the condition does not lose keys. -/
theorem few_growOk {C : Config} (hC : 0 < C.fuel) {h : Heap} {m : Map.MObj Ref Ref} {es : List (Nat × Nat)}
    (hh : HoldsAt h m es) (hf : few h (es.map (·.1)) = true) : growOk C h m = true := by
  obtain ⟨⟨e, hh⟩, ha⟩ := hh
  unfold growOk
  by_cases hc : m.count = Map.calcCapacity m.mapperSize
  · rw [if_pos hc]
    have hpos : ∀ x ∈ es, ((aops h).hash x.1).toNat < 2 ^ 31 := by
      unfold few at hf
      rw [Bool.or_eq_true, decide_eq_true_eq, distinct_of_nodup (distinct_keys hh.distinct), List.length_map,
        List.length_map, ← hh.count, hc, hh.w.size] at hf
      rcases hf with hf | hf
      · exfalso
        have h8 : 2 ^ 3 ≤ 2 ^ e := Nat.pow_le_pow_right (by omega) hh.w.e3
        unfold Map.calcCapacity at hf
        omega
      · intro x hx
        have := List.all_eq_true.1 hf x.1 (List.mem_map_of_mem hx)
        simpa using this
    have hha : ∀ p ∈ es, (kops C h false).hash p.1 = (aops h).hash p.1 := fun p hp => kops_hash hC (ha p hp)
    obtain ⟨m', h1, h2, -⟩ := hh.grow hpos (tfuel m) (by unfold tfuel; rw [hh.w.size, Nat.pow_succ]; omega)
    rw [Map.grow_congr hh hha, h1]
    dsimp only
    rw [← h2.allPlaced (aops_consistent h)]
    refine allPlaced_congr _ _ fun j k _ hj hk => ?_
    rw [Nat.zero_add, h2.count] at hj
    have hs := List.getElem?_eq_getElem hj
    have := h2.keys j _ hs
    rw [hk] at this
    cases this
    exact hha _ (List.getElem_mem hj)
  · rw [if_neg hc]

theorem up_def {f : World → Out World α} {x : TWorld} (h : up f x = .ub) : f x.w = .ub := by
  unfold up at h
  cases hf : f x.w with
  | ub => rfl
  | ok w a => rw [hf] at h; cases h
  | err w => rw [hf] at h; cases h

theorem insertT_def (hB : Tame B) {col key val : Ref} {x : TWorld} (ht : TH x)
    (q : insertT (std B) true col key val x = .ub) : insertG (std B) few col key val x.w = .ub := by
  by_cases hmap : ∃ es, x.w.heap[col]? = some (.map es)
  · obtain ⟨es, hcol⟩ := hmap
    unfold insertG
    simp only [hcol]
    by_cases hg : (isKey x.w.heap key && few x.w.heap (es.map (·.1))) = true
    · exfalso
      rw [Bool.and_eq_true] at hg
      obtain ⟨hk, hf⟩ := hg
      have hgr := few_growOk (C := std B) hB.fuel (ht col es hcol) hf
      obtain ⟨o, ho, ha⟩ := isKey_iff.1 hk
      obtain ⟨m, h1, h2⟩ := insert_ref (C := std B) hB.fuel (val := val) (ht col es hcol) hk hgr
      have hhk := hash_key (fuel := (std B).fuel) ho ha hB.fuel
      unfold insertT at q
      simp only [hcol] at q
      rw [if_neg (by rw [hk, hgr]; decide), hhk, h1, ho] at q
      cases o <;> first | (cases ha; done) | cases q
    · rw [if_neg hg]
  · unfold insertT at q
    unfold insertG
    split at q
    · rename_i es h; exact absurd ⟨es, h⟩ hmap
    · split
      · rename_i es h; exact absurd ⟨es, h⟩ hmap
      · exact up_def q

/-- From the refinement by the layer to that of the guarded layer. -/
theorem flip_ref {T : Out TWorld α} {O G : Out World α} (h : Refine.ORef Rt T O) (hg : G = .ub ∨ G = O)
    (hd : T = .ub → G = .ub) : Refine.ORef (fun w x => Rt x w) G T := by
  cases T with
  | ub => rw [hd rfl]; trivial
  | ok u a =>
    obtain ⟨w, rfl, hr⟩ := h
    rcases hg with rfl | rfl
    · trivial
    · exact ⟨u, rfl, hr⟩
  | err u =>
    obtain ⟨w, rfl, hr⟩ := h
    rcases hg with rfl | rfl
    · trivial
    · exact ⟨u, rfl, hr⟩

theorem flip_up {f : World → Out World α} {x : TWorld} {w : World} (hr : Rt x w) (h : Refine.ORef Rt (up f x) (f w)) :
    Refine.ORef (fun w x => Rt x w) (f w) (up f x) := by
  refine flip_ref h (.inr rfl) fun q => ?_
  rw [← hr.1]
  exact up_def q

theorem silent_isType {w : World} {x : Exec (Bool × Bool)}
    (h : silent ((outOf w x).bind fun r w => Out.ok { w with err := r.2 } r.1) ≠ .ub) : ∃ b, x = .ok (b, false) := by
  cases x with
  | ok r =>
    obtain ⟨b, e⟩ := r
    cases e with
    | false => exact ⟨b, rfl⟩
    | true => exact absurd rfl h
  | _ => exact absurd rfl h

theorem isTypeIT_def (hB : Tame B) {t v : Ref} {x : TWorld} (ht : TH x) (he : x.w.err = false)
    (q : isTypeIT (std B) true t v x = .ub) : silent ((objects (std B)).isType t v x.w) = .ub := by
  refine Classical.byContradiction fun h => ?_
  obtain ⟨b, hb⟩ := silent_isType (w := x.w) (x := Graph.isTypeOf (std B).hit x.w.heap (std B).fuel x.w.err t v) h
  rw [he] at hb
  have := isTypeT_def hB ht _ _ _ _ hb
  unfold isTypeIT at q
  rw [he, this] at q
  cases q

/-- The watched layer does what the guarded layer does, if the condition is `few`. -/
theorem guarded_tables (hB : Tame B) (hL : Loud B) :
    Refine.LRef (fun w x => Rt x w) (guarded (std B) few) (tables (std B) true) where
  none := rfl
  tru := rfl
  fls := rfl
  pending w x h := by rw [← h.1]; rfl
  int i w x h := flip_up (f := (objects (std B)).int i) h ((tables_ref hB).int i x w h)
  float i w x h := flip_up (f := (objects (std B)).float i) h ((tables_ref hB).float i x w h)
  str s w x h := flip_up (f := (objects (std B)).str s) h ((tables_ref hB).str s x w h)
  un o a w x h := flip_up (f := (objects (std B)).un o a) h ((tables_ref hB).un o a x w h)
  bin o a b w x h := flip_up (f := (objects (std B)).bin o a b) h ((tables_ref hB).bin o a b x w h)
  asBool a w x h := flip_up (f := (objects (std B)).asBool a) h ((tables_ref hB).asBool a x w h)
  isNone a w x h := flip_up (f := (objects (std B)).isNone a) h ((tables_ref hB).isNone a x w h)
  isType t v w x h := by
    refine flip_ref ((tables_ref hB).isType t v x w h) (if_ub (silent_cases _)) fun q => ?_
    obtain ⟨rfl, ht⟩ := h
    show (if x.w.err then .ub else silent ((objects (std B)).isType t v x.w)) = .ub
    cases he : x.w.err with
    | true => rfl
    | false => exact isTypeIT_def hB ht he q
  newList n w x h := flip_up (f := (objects (std B)).newList n) h ((tables_ref hB).newList n x w h)
  newMap n w x h := by
    refine flip_ref ((tables_ref hB).newMap n x w h) (.inr rfl) fun q => ?_
    exfalso
    obtain ⟨m, e, h1, h2, h3, -⟩ := Map.newMap_spec (K := Ref) (V := Ref) n
    have q : newMapT n x = .ub := q
    unfold newMapT at q
    rw [h1 _ (Nat.lt_succ_self _)] at q
    cases q
  select a b w x h := by
    refine flip_ref ((tables_ref hB).select a b x w h) (if_ub (.inr rfl)) fun q => ?_
    obtain ⟨rfl, ht⟩ := h
    show (if searched x.w.heap a && !isKey x.w.heap b then .ub else selectI (std B) a b x.w) = .ub
    by_cases hk : (searched x.w.heap a && !isKey x.w.heap b) = true
    · rw [if_pos hk]
    · rw [if_neg hk]
      have hk : searched x.w.heap a = true → isKey x.w.heap b = true := by
        intro h1
        cases h2 : isKey x.w.heap b with
        | true => rfl
        | false => rw [h1, h2] at hk; exact absurd rfl hk
      have q : (selectT (std B) true (selFuel x.w) a b ⟨{ x.w with err := false }, x.t⟩).bind
        (fun v u => Out.ok (⟨{ u.w with err := x.w.err }, u.t⟩ : TWorld) (v.getD 0)) = .ub := q
      have hd := selectT_def hB (selFuel x.w) a b ⟨{ x.w with err := false }, x.t⟩ (TH.keep ht (Keep.same rfl)) rfl hk
      cases hs : selectT (std B) true (selFuel x.w) a b ⟨{ x.w with err := false }, x.t⟩ with
      | ub =>
        have hd := hd hs
        dsimp only at hd
        unfold selectI
        rw [hd]
        rfl
      | ok u v => rw [hs] at q; cases q
      | err u => rw [hs] at q; cases q
  insert a b c w x h := by
    refine flip_ref ((tables_ref hB).insert a b c x w h) (insertG_cases _ _ a b c w) fun q => ?_
    obtain ⟨rfl, ht⟩ := h
    exact insertT_def hB ht q
  newScope w x h := by
    refine flip_ref ((tables_ref hB).newScope x w h) (.inr rfl) fun q => ?_
    exfalso
    obtain ⟨m, e, h1, h2, h3, -⟩ := Map.newMap_spec (K := Ref) (V := Ref) (-1)
    have q : newMapT (-1) x = .ub := q
    unfold newMapT at q
    rw [h1 _ (Nat.lt_succ_self _)] at q
    cases q
  setVar a n c w x h := by
    refine flip_ref ((tables_ref hB).setVar a n c x w h) (bind_ub fun s w => insertG_cases _ _ _ _ _ _) fun q => ?_
    obtain ⟨rfl, ht⟩ := h
    have q : (up (fun w => outOf w (cstring n)) x).bind
      (fun s x => insertT (std B) true a (x.w.alloc (.str s)).2 c (strT s x)) = .ub := q
    show (outOf x.w (cstring n)).bind (fun s w => insertG (std B) few a (w.alloc (.str s)).2 c (w.alloc (.str s)).1) = .ub
    cases hn : cstring n with
    | ok s =>
      have q : insertT (std B) true a (x.w.alloc (.str s)).2 c (strT s x) = .ub := by
        unfold up at q
        simp only [hn] at q
        exact q
      exact insertT_def hB (Rt.str ⟨rfl, ht⟩ s).2 q
    | err =>
      exfalso
      unfold up at q
      simp only [hn] at q
      cases q
    | _ => rfl
  getVar a c n w x h := by
    refine flip_ref ((tables_ref hB).getVar a c n x w h) (if_ub (quiet_cases _)) fun q => ?_
    obtain ⟨rfl, ht⟩ := h
    show (if x.w.err || !nameOk n then .ub else quiet (getVar (std B) a c n x.w)) = .ub
    by_cases hg : (x.w.err || !nameOk n) = true
    · rw [if_pos hg]
    · rw [if_neg hg]
      rw [Bool.or_eq_true, not_or, Bool.not_eq_true, Bool.not_eq_true', Bool.not_eq_false] at hg
      obtain ⟨he, hn⟩ := hg
      unfold nameOk at hn
      have q : (up (fun w => outOf w (cstring n)) x).bind (fun s x =>
        (searchInT (std B) true (x.w.alloc (.str s)).2 [some a, c, (std B).builtins] (strT s x)).bind fun v x =>
          match v with
          | some r => .ok x r
          | none => .err x) = .ub := q
      cases hs : cstring n with
      | ok s =>
        rw [hs] at hn
        dsimp only at hn
        have q : (searchInT (std B) true (x.w.alloc (.str s)).2 [some a, c, (std B).builtins] (strT s x)).bind (fun v x =>
          match v with
          | some r => Out.ok x r
          | none => .err x) = .ub := by
          unfold up at q
          simp only [hs] at q
          exact q
        have hk : isKey (x.w.alloc (.str s)).1.heap (x.w.alloc (.str s)).2 = true :=
          isKey_iff.2 ⟨.str s, by rw [alloc_heap]; exact List.getElem?_concat_length, hn⟩
        have hd := searchInT_def hB hL (x.w.alloc (.str s)).2 [some a, c, (std B).builtins] (strT s x)
          (Rt.str ⟨rfl, ht⟩ s).2 he hk
        cases hq : searchInT (std B) true (x.w.alloc (.str s)).2 [some a, c, (std B).builtins] (strT s x) with
        | ub =>
          have hd := hd hq
          refine quiet_stays ?_
          unfold getVar
          rw [hs]
          refine Stays.bind (f := fun v w => match v with
            | some r => Out.ok w r
            | none => .err w) hd fun v w h => ?_
          cases v <;> exact h
        | ok u v => rw [hq] at q; cases v <;> cases q
        | err u => rw [hq] at q; cases q
      | _ => rw [hs] at hn; cases hn
  newFunc c l w x h := flip_up (f := (objects (std B)).newFunc c l) h ((tables_ref hB).newFunc c l x w h)
  callee f w x h := flip_up (f := (objects (std B)).callee f) h ((tables_ref hB).callee f x w h)
  native id args w x h := by
    refine flip_ref ((tables_ref hB).native id args x w h) ?_ fun q => ?_
    · exact (guarded_objects (std B) few).native id args w w rfl |> fun h => by
        cases hx : (guarded (std B) few).native id args w with
        | ub => exact .inl rfl
        | ok u a => rw [hx] at h; obtain ⟨v, h1, rfl⟩ := h; exact .inr h1.symm
        | err u => rw [hx] at h; obtain ⟨v, h1, rfl⟩ := h; exact .inr h1.symm
    obtain ⟨rfl, ht⟩ := h
    show (if id = 4 then (if x.w.err then .ub else silent (stdNative B id args x.w)) else stdNative B id args x.w) = .ub
    replace q : nativeT (std B) true id args x = .ub := q
    unfold nativeT at q
    split at q
    · rename_i t v
      rw [if_pos rfl]
      cases he : x.w.err with
      | true => rfl
      | false =>
        have q : isTypeIT (std B) true t v x = .ub := by
          cases hq : isTypeIT (std B) true t v x with
          | ub => rfl
          | ok u a => rw [hq] at q; cases q
          | err u => rw [hq] at q; cases q
        have h := isTypeIT_def hB ht he q
        show silent ((outOf x.w (Graph.isTypeOf B.hit x.w.heap B.fuel x.w.err t v)).bind fun r w =>
          Out.ok { w with err := r.2 } (NRes.done [boolRef r.1])) = .ub
        have h : silent ((outOf x.w (Graph.isTypeOf B.hit x.w.heap B.fuel x.w.err t v)).bind fun r w =>
          Out.ok { w with err := r.2 } r.1) = .ub := h
        cases hz : Graph.isTypeOf B.hit x.w.heap B.fuel x.w.err t v with
        | ok r =>
          rw [hz] at h
          obtain ⟨b, e⟩ := r
          cases e with
          | true => rfl
          | false => cases h
        | _ => rfl
    · have q := up_def q
      have q : stdNative B id args x.w = .ub := q
      rw [q]
      by_cases h4 : id = 4
      · rw [if_pos h4]; split <;> rfl
      · rw [if_neg h4]

end Noja.VM
