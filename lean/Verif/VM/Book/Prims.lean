import Verif.VM.Book.Strings
import Verif.VM.Book.Colls
import Verif.VM.Start.Iter
import Verif.Graph.IsType

/-!
# Native functions do what the book says
-/

set_option linter.unusedVariables false
set_option linter.unusedSimpArgs false

namespace Noja.VM.Book

open Noja.Graph (Obj Kind Heap Text text setFlag)
open Noja.VM.Start (argsOf_cons onArgs_eq consecutive_heap consecutive_rest)

variable {S : Setup} {D : List Ref} {e e' : Emb} {σ σ' : Store} {s s' : SSt World}

/-! ## Printing -/

theorem nodup_le : ∀ (N : Nat) (l : List Nat), l.Nodup → (∀ x ∈ l, x < N) → l.length ≤ N
  | 0, [], _, _ => Nat.le_refl 0
  | 0, x :: l, _, h => absurd (h x (List.mem_cons_self ..)) (Nat.not_lt_zero _)
  | N + 1, l, hn, h => by
    have ih := nodup_le N (l.erase N) (hn.erase N) fun x hx => by
      have := h x (List.mem_of_mem_erase hx)
      have hne := (hn.mem_erase_iff.1 hx).1
      omega
    by_cases hm : N ∈ l
    · rw [List.length_erase_of_mem hm] at ih; omega
    · rw [List.erase_of_not_mem hm] at ih; omega

theorem nodup_lt (M N : Nat) (l : List Nat) (hn : l.Nodup) (h : ∀ x ∈ l, M ≤ x ∧ x < N) (hMN : M ≤ N) : l.length + M ≤ N := by
  have hd : (List.range M ++ l).Nodup := by
    rw [List.nodup_append]
    refine ⟨List.nodup_range, hn, fun x hx y hy q => ?_⟩
    have := List.mem_range.1 hx
    have := (h y hy).1
    omega
  have := nodup_le N _ hd fun x hx => by
    rcases List.mem_append.1 hx with hx | hx
    · have := List.mem_range.1 hx; omega
    · exact (h x hx).2
  rw [List.length_append, List.length_range] at this
  omega

/-- Flags are set on the objects of these cells. -/
def Flags (e : Emb) (fl : Nat → Bool) (inside : List Nat) : Prop := ∀ r, fl r = true ↔ ∃ a ∈ inside, At e r a

theorem Flags.cons (hi : Inv S e σ s) {fl : Nat → Bool} {inside : List Nat} {r : Ref} {a : Nat} (h : Flags e fl inside)
    (ha : At e r a) : Flags e (setFlag fl r true) (a :: inside) := by
  intro x
  unfold setFlag
  by_cases q : x = r
  · subst q
    rw [if_pos rfl]
    exact ⟨fun _ => ⟨a, List.mem_cons_self .., ha⟩, fun _ => rfl⟩
  · rw [if_neg q, h x]
    constructor
    · rintro ⟨b, hb, hx⟩
      exact ⟨b, List.mem_cons_of_mem _ hb, hx⟩
    · rintro ⟨b, hb, hx⟩
      rcases List.mem_cons.1 hb with rfl | hb
      · unfold At at ha hx
        rw [ha] at hx
        exact absurd (Option.some.inj hx).symm q
      · exact ⟨b, hb, hx⟩

/-- What is no cell has no flag. -/
theorem Flags.no (hi : Inv S e σ s) {fl : Nat → Bool} {inside : List Nat} (h : Flags e fl inside) {r : Ref} {o : Obj}
    (ho : s.w.heap[r]? = some o) (hl : o.kind ≠ .list) (hm : o.kind ≠ .map) (hb : o.kind ≠ .buffer) : fl r = false := by
  cases hf : fl r with
  | false => rfl
  | true =>
    obtain ⟨a, _, ha⟩ := (h r).1 hf
    obtain ⟨o', ho', hk⟩ := Rep.looks hi (v := .ref a) ha
    rw [ho] at ho'
    cases ho'
    rcases hk with ⟨_, _, rfl, _⟩ | ⟨_, _, rfl, _⟩ | ⟨_, _, rfl, _⟩ | ⟨_, rfl, _⟩
    · exact absurd rfl hl
    · exact absurd rfl hm
    · exact absurd rfl hm
    · exact absurd rfl hb

theorem print_leaf (hi : Inv S e σ s) {fmt : BitVec 64 → Text} {fl : Nat → Bool} {inside : List Nat}
    (h : Flags e fl inside) {r : Ref} {o : Obj} {t : Text} {m : Nat} (ho : s.w.heap[r]? = some o) (hl : o.kind ≠ .list)
    (hm : o.kind ≠ .map) (hB : o.kind ≠ .buffer) (hb : ∀ p fl, Graph.printBody fmt p fl o = .ok (t, fl)) :
    Graph.print fmt s.w.heap (m + 1) fl r = .ok (t, fl) := by
  have hf := h.no hi ho hl hm hB
  rw [Graph.print_succ fmt ho fl hf, hb, Exec.bind_ok]
  show Exec.ok (t, _) = _
  rw [Graph.set_set fl r hf]

theorem print_text {t : List Nat} (h : Plain t) : Str.print (Str.Spec.ofText t) = Utf8.Spec.encodeText t := by
  unfold Str.print
  show ((Utf8.Spec.encodeText t ++ [0]).take (Utf8.Spec.encodeText t).length).takeWhile _ = _
  rw [List.take_left' rfl]
  exact takeWhile_noNul _ (noNul_text h)

theorem print_all [Floats] (fmt : BitVec 64 → Text) {fl : Nat → Bool} {m n : Nat} {inside : List Nat}
    (one : ∀ {v : Val} {t : Text} {r : Ref}, showVal σ n inside v = some t → Rep e s r v →
      Graph.print fmt s.w.heap m fl r = .ok (t, fl)) :
    ∀ {vs : List Val} {ts : List Text} {rs : List Ref}, showAll (showVal σ n inside) vs = some ts → All2 (Rep e s) rs vs →
      Graph.printSeq (Graph.print fmt s.w.heap m) rs fl = .ok ((text ", ").intercalate ts, fl)
  | [], ts, rs, h, hr => by
    unfold showAll at h
    cases h
    cases rs with
    | nil => rfl
    | cons r rs => exact hr.elim
  | v :: vs, ts, [], h, hr => hr.elim
  | v :: vs, ts, r :: rs, h, hr => by
    unfold showAll at h
    cases h1 : showVal σ n inside v with
    | none => rw [h1] at h; cases h
    | some t =>
      cases h2 : showAll (showVal σ n inside) vs with
      | none => rw [h1, h2] at h; cases h
      | some ts' =>
        rw [h1, h2] at h
        cases h
        unfold Graph.printSeq
        rw [one h1 hr.1, Exec.bind_ok]
        dsimp only
        rw [print_all fmt one h2 hr.2, Exec.bind_ok, Graph.intercalate_cons]
        have : rs.isEmpty = ts'.isEmpty := by
          cases rs with
          | nil =>
            cases vs with
            | nil => unfold showAll at h2; cases h2; rfl
            | cons w vs => exact hr.2.elim
          | cons q rs =>
            cases vs with
            | nil => exact hr.2.elim
            | cons w vs =>
              unfold showAll at h2
              cases h3 : showVal σ n inside w with
              | none => rw [h3] at h2; cases h2
              | some t3 =>
                cases h4 : showAll (showVal σ n inside) vs with
                | none => rw [h3, h4] at h2; cases h2
                | some t4 => rw [h3, h4] at h2; cases h2; rfl
        rw [this]

theorem showPairs_empty [Floats] {n : Nat} {inside : List Nat} : ∀ {vs : List (Val × Val)} {ts : List Text} {rs : List (Ref × Ref)},
    showPairs (showVal σ n inside) vs = some ts → All2 (Rep2 e s) rs vs → rs.isEmpty = ts.isEmpty
  | [], ts, rs, h, hr => by
    unfold showPairs at h
    cases h
    cases rs with
    | nil => rfl
    | cons r rs => exact hr.elim
  | v :: vs, ts, [], h, hr => hr.elim
  | v :: vs, ts, r :: rs, h, hr => by
    unfold showPairs at h
    cases h1 : showVal σ n inside v.1 with
    | none => rw [h1] at h; cases h
    | some t =>
      cases h2 : showVal σ n inside v.2 with
      | none => rw [h1, h2] at h; cases h
      | some u =>
        cases h3 : showPairs (showVal σ n inside) vs with
        | none => rw [h1, h2, h3] at h; cases h
        | some ts' => rw [h1, h2, h3] at h; cases h; rfl

theorem print_pairs [Floats] (fmt : BitVec 64 → Text) {fl : Nat → Bool} {m n : Nat} {inside : List Nat}
    (one : ∀ {v : Val} {t : Text} {r : Ref}, showVal σ n inside v = some t → Rep e s r v →
      Graph.print fmt s.w.heap m fl r = .ok (t, fl)) :
    ∀ {vs : List (Val × Val)} {ts : List Text} {rs : List (Ref × Ref)}, showPairs (showVal σ n inside) vs = some ts →
      All2 (Rep2 e s) rs vs →
      Graph.printEntries (Graph.print fmt s.w.heap m) rs fl = .ok ((text ", ").intercalate ts, fl)
  | [], ts, rs, h, hr => by
    unfold showPairs at h
    cases h
    cases rs with
    | nil => rfl
    | cons r rs => exact hr.elim
  | v :: vs, ts, [], h, hr => hr.elim
  | v :: vs, ts, r :: rs, h, hr => by
    unfold showPairs at h
    cases h1 : showVal σ n inside v.1 with
    | none => rw [h1] at h; cases h
    | some t =>
      cases h2 : showVal σ n inside v.2 with
      | none => rw [h1, h2] at h; cases h
      | some u =>
        cases h3 : showPairs (showVal σ n inside) vs with
        | none => rw [h1, h2, h3] at h; cases h
        | some ts' =>
          rw [h1, h2, h3] at h
          cases h
          unfold Graph.printEntries
          rw [one h1 hr.1.1, Exec.bind_ok]
          dsimp only
          rw [one h2 hr.1.2, Exec.bind_ok]
          dsimp only
          rw [print_pairs fmt one h3 hr.2, Exec.bind_ok, Graph.intercalate_cons, showPairs_empty h3 hr.2]

/-! ### Types -/

/-- Types of which all parts are types. -/
def Ty.closed : Ty → Prop
  | .kind _ | .any => True
  | .sum a b => a.closed ∧ b.closed
  | .nullable a => a.closed
  | .cell _ | .other => False

theorem Ty.closed.proper : ∀ {t : Ty}, t.closed → t.proper
  | .kind _, _ => trivial
  | .any, _ => trivial
  | .sum _ _, _ => trivial
  | .nullable _, _ => trivial

theorem showTy_closed : ∀ {n : Nat} {t : Ty} {x : Text}, showTy n t = some x → t.closed
  | 0, t, _, h => by cases t <;> cases h
  | n + 1, .kind _, _, _ => trivial
  | n + 1, .any, _, _ => trivial
  | n + 1, .sum a b, x, h => by
    unfold showTy at h
    cases h1 : showTy n a with
    | none => rw [h1] at h; cases h
    | some t1 =>
      cases h2 : showTy n b with
      | none => rw [h1, h2] at h; cases h
      | some t2 => exact ⟨showTy_closed h1, showTy_closed h2⟩
  | n + 1, .nullable a, x, h => by
    unfold showTy at h
    cases h1 : showTy n a with
    | none => rw [h1] at h; cases h
    | some t1 => exact showTy_closed (t := a) h1
  | n + 1, .cell _, _, h => by cases h
  | n + 1, .other, _, h => by cases h

theorem RepTy.unique {h : Heap} : ∀ {t u : Ty} {r : Ref}, RepTy e h r t → t.closed → RepTy e h r u → u.closed → t = u
  | .kind k, u, r, ht, _, hu, hc => by
    cases u with
    | cell _ => exact hc.elim
    | other => exact hc.elim
    | kind k' => have hu : h[r]? = some (.type k') := hu; rw [show h[r]? = some (.type k) from ht] at hu; cases hu; rfl
    | any => have hu : h[r]? = some .any := hu; rw [show h[r]? = some (.type k) from ht] at hu; cases hu
    | sum a b => obtain ⟨x, y, hu, -⟩ := hu; rw [show h[r]? = some (.type k) from ht] at hu; cases hu
    | nullable a => obtain ⟨x, hu, -⟩ := hu; rw [show h[r]? = some (.type k) from ht] at hu; cases hu
  | .any, u, r, ht, _, hu, hc => by
    cases u with
    | cell _ => exact hc.elim
    | other => exact hc.elim
    | kind k' => have hu : h[r]? = some (.type k') := hu; rw [show h[r]? = some .any from ht] at hu; cases hu
    | any => rfl
    | sum a b => obtain ⟨x, y, hu, -⟩ := hu; rw [show h[r]? = some .any from ht] at hu; cases hu
    | nullable a => obtain ⟨x, hu, -⟩ := hu; rw [show h[r]? = some .any from ht] at hu; cases hu
  | .sum a b, u, r, ⟨x, y, ht, ha, hb⟩, hp, hu, hc => by
    cases u with
    | cell _ => exact hc.elim
    | other => exact hc.elim
    | kind k' => have hu : h[r]? = some (.type k') := hu; rw [ht] at hu; cases hu
    | any => have hu : h[r]? = some .any := hu; rw [ht] at hu; cases hu
    | sum c d =>
      obtain ⟨x', y', hu, hs, hd⟩ := hu
      rw [ht] at hu
      cases hu
      rw [RepTy.unique ha hp.1 hs hc.1, RepTy.unique hb hp.2 hd hc.2]
    | nullable a => obtain ⟨x, hu, -⟩ := hu; rw [ht] at hu; cases hu
  | .nullable a, u, r, ⟨x, ht, ha⟩, hp, hu, hc => by
    cases u with
    | cell _ => exact hc.elim
    | other => exact hc.elim
    | kind k' => have hu : h[r]? = some (.type k') := hu; rw [ht] at hu; cases hu
    | any => have hu : h[r]? = some .any := hu; rw [ht] at hu; cases hu
    | sum c d => obtain ⟨x', y', hu, -⟩ := hu; rw [ht] at hu; cases hu
    | nullable b =>
      obtain ⟨x', hu, hb⟩ := hu
      rw [ht] at hu
      cases hu
      rw [RepTy.unique ha hp hb hc]
  | .cell _, _, _, _, hp, _, _ => hp.elim
  | .other, _, _, _, hp, _, _ => hp.elim

/-- Flags are set, among types, only on larger ones. -/
def Larger (e : Emb) (h : Heap) (fl : Nat → Bool) (n : Nat) : Prop :=
  ∀ x t, fl x = true → RepTy e h x t → t.closed → n < sizeOf t

theorem Larger.no {h : Heap} {fl : Nat → Bool} {t : Ty} {r : Ref} (hl : Larger e h fl (sizeOf t)) (hr : RepTy e h r t)
    (hc : t.closed) : fl r = false := by
  cases hf : fl r with
  | false => rfl
  | true => exact absurd (hl r t hf hr hc) (Nat.lt_irrefl _)

theorem Larger.part {h : Heap} {fl : Nat → Bool} {t u : Ty} {r : Ref} (hl : Larger e h fl (sizeOf t)) (hr : RepTy e h r t)
    (hc : t.closed) (hu : sizeOf u < sizeOf t) : Larger e h (setFlag fl r true) (sizeOf u) := by
  intro x v hx hv hcv
  unfold setFlag at hx
  by_cases q : x = r
  · subst q; rw [RepTy.unique hv hcv hr hc]; exact hu
  · rw [if_neg q] at hx
    exact Nat.lt_trans hu (hl x v hx hv hcv)

theorem print_ty (fmt : BitVec 64 → Text) {h : Heap} : ∀ (n : Nat) {m : Nat} {fl : Nat → Bool} {t : Ty} {x : Text} {r : Ref},
    n ≤ m → Larger e h fl (sizeOf t) → showTy n t = some x → RepTy e h r t → Graph.print fmt h m fl r = .ok (x, fl)
  | 0, _, _, t, _, _, _, _, hs, _ => by cases t <;> cases hs
  | n + 1, 0, _, _, _, _, hm, _, _, _ => absurd hm (Nat.not_succ_le_zero n)
  | n + 1, m + 1, fl, t, x, r, hm, hl, hs, hr => by
    have hm' : n ≤ m := Nat.le_of_succ_le_succ hm
    have hc := showTy_closed hs
    have hf := hl.no hr hc
    cases t with
    | cell _ => exact hc.elim
    | other => exact hc.elim
    | kind k =>
      cases hs
      rw [Graph.print_succ fmt hr fl hf]
      show Exec.ok (_, _) = _
      rw [Graph.set_set fl r hf]
    | any =>
      cases hs
      rw [Graph.print_succ fmt hr fl hf]
      show Exec.ok (_, _) = _
      rw [Graph.set_set fl r hf]
    | sum a b =>
      have hr' := hr
      obtain ⟨p, q, ho, ha, hb⟩ := hr
      unfold showTy at hs
      cases h1 : showTy n a with
      | none => rw [h1] at hs; cases hs
      | some t1 =>
        cases h2 : showTy n b with
        | none => rw [h1, h2] at hs; cases hs
        | some t2 =>
          rw [h1, h2] at hs
          cases hs
          rw [Graph.print_succ fmt ho fl hf]
          have e1 := print_ty fmt n hm' (hl.part (u := a) hr' hc (by simp; omega)) h1 ha
          have e2 := print_ty fmt n hm' (hl.part (u := b) hr' hc (by simp; omega)) h2 hb
          have hb : Graph.printBody fmt (Graph.print fmt h m) (setFlag fl r true) (.sum p q) =
              .ok (t1 ++ text " | " ++ t2, setFlag fl r true) := by
            show (Graph.print fmt h m _ p >>= _) = _
            rw [e1, Exec.bind_ok]
            dsimp only
            rw [e2]
            rfl
          rw [hb, Exec.bind_ok]
          show Exec.ok (_, _) = _
          rw [Graph.set_set fl r hf]
    | nullable a =>
      have hr' := hr
      obtain ⟨p, ho, ha⟩ := hr
      unfold showTy at hs
      cases h1 : showTy n a with
      | none => rw [h1] at hs; cases hs
      | some t1 =>
        rw [h1] at hs
        cases hs
        rw [Graph.print_succ fmt ho fl hf]
        have e1 := print_ty fmt n hm' (hl.part (u := a) hr' hc (by simp)) h1 ha
        have hb : Graph.printBody fmt (Graph.print fmt h m) (setFlag fl r true) (.nullable p) =
            .ok (text "?" ++ t1, setFlag fl r true) := by
          show (Graph.print fmt h m _ p >>= _) = _
          rw [e1]
          rfl
        rw [hb, Exec.bind_ok]
        show Exec.ok (_, _) = _
        rw [Graph.set_set fl r hf]

theorem print_val [Floats] (hi : Inv S e σ s) : ∀ (n : Nat) {m : Nat} {fl : Nat → Bool}
    {inside : List Nat} {v : Val} {t : Text} {r : Ref}, n ≤ m → Flags e fl inside → showVal σ n inside v = some t →
    Rep e s r v → Graph.print Floats.write s.w.heap m fl r = .ok (t, fl)
  | 0, _, _, _, _, _, _, _, _, h, _ => by unfold showVal at h; cases h
  | n + 1, 0, _, _, _, _, _, hm, _, _, _ => absurd hm (Nat.not_succ_le_zero n)
  | n + 1, m + 1, fl, inside, v, t, r, hm, hf, h, hr => by
    have hm' : n ≤ m := Nat.le_of_succ_le_succ hm
    unfold showVal at h
    cases v with
    | none => cases h; exact print_leaf hi hf hr nofun nofun nofun fun _ _ => rfl
    | bool b => cases h; exact print_leaf hi hf hr nofun nofun nofun fun _ _ => rfl
    | int v => cases h; exact print_leaf hi hf hr nofun nofun nofun fun _ _ => rfl
    | float x => cases h; exact print_leaf hi hf hr nofun nofun nofun fun _ _ => rfl
    | str t =>
      cases h
      refine print_leaf hi hf hr.1 nofun nofun nofun fun _ _ => ?_
      show Exec.ok (Str.print _, _) = _
      rw [print_text hr.2]
    | type t =>
      refine print_ty Floats.write (n + 1) hm (fun x u hx hu hcu => ?_) h hr.1
      obtain ⟨o, ho, hl⟩ := RepTy.looks ⟨hu, hcu.proper⟩
      rcases hl.cases with ⟨_, rfl⟩ | rfl | ⟨_, _, rfl⟩ | ⟨_, rfl⟩ <;>
        (have hno := hf.no hi ho nofun nofun nofun; rw [hno] at hx; cases hx)
    | fn f c => cases h; exact print_leaf hi hf hr.1 nofun nofun nofun fun _ _ => rfl
    | prim p => cases h; exact print_leaf hi hf hr.1 nofun nofun nofun fun _ _ => rfl
    | lib _ => cases h; exact print_leaf hi hf hr.1 nofun nofun nofun fun _ _ => rfl
    | ref a =>
      dsimp only at h
      by_cases hin : a ∈ inside
      · rw [if_pos hin] at h
        cases h
        obtain ⟨o, ho, _⟩ := Rep.looks hi hr
        exact Graph.print_flagged Floats.write ho fl ((hf r).2 ⟨a, hin, hr⟩)
      · rw [if_neg hin] at h
        have hfr : fl r = false := by
          cases hq : fl r with
          | false => rfl
          | true =>
            obtain ⟨b, hb, hx⟩ := (hf r).1 hq
            have h1 := List.getElem?_eq_some_iff.1 (show e[a]? = some r from hr)
            have h2 := List.getElem?_eq_some_iff.1 (show e[b]? = some r from hx)
            have := (List.getElem_inj hi.nodup).1 (h1.2.trans h2.2.symm)
            subst this
            exact absurd hb hin
        have hf' := hf.cons hi hr
        have one : ∀ {v : Val} {t : Text} {x : Ref}, showVal σ n (a :: inside) v = some t → Rep e s x v →
            Graph.print Floats.write s.w.heap m (setFlag fl r true) x = .ok (t, setFlag fl r true) :=
          fun h1 h2 => print_val hi n hm' hf' h1 h2
        cases hc : σ.cells[a]? with
        | none => rw [hc] at h; cases h
        | some c =>
          rw [hc] at h
          have hh := hi.cells a c r hc hr
          cases c with
          | list items =>
            obtain ⟨rs, ho, hrs⟩ := hh
            dsimp only at h
            cases hs : showAll (showVal σ n (a :: inside)) items with
            | none => rw [hs] at h; cases h
            | some ts =>
              rw [hs] at h
              cases h
              rw [Graph.print_succ Floats.write ho fl hfr]
              have hp := print_all Floats.write one hs hrs
              have hb : Graph.printBody Floats.write (Graph.print Floats.write s.w.heap m) (setFlag fl r true) (.list rs) =
                  .ok (text "[" ++ (text ", ").intercalate ts ++ text "]", setFlag fl r true) := by
                show (Graph.printSeq _ _ _ >>= _) = _
                rw [hp]
                rfl
              rw [hb, Exec.bind_ok]
              show Exec.ok (_, _) = _
              rw [Graph.set_set fl r hfr]
          | map es =>
            obtain ⟨rs, ho, hrs, _⟩ := hh
            dsimp only at h
            cases hs : showPairs (showVal σ n (a :: inside)) es with
            | none => rw [hs] at h; cases h
            | some ts =>
              rw [hs] at h
              cases h
              rw [Graph.print_succ Floats.write ho fl hfr]
              have hp := print_pairs Floats.write one hs hrs
              have hb : Graph.printBody Floats.write (Graph.print Floats.write s.w.heap m) (setFlag fl r true) (.map rs) =
                  .ok (text "{" ++ (text ", ").intercalate ts ++ text "}", setFlag fl r true) := by
                show (Graph.printEntries _ _ _ >>= _) = _
                rw [hp]
                rfl
              rw [hb, Exec.bind_ok]
              show Exec.ok (_, _) = _
              rw [Graph.set_set fl r hfr]
          | scope env => cases h
          | buffer bs =>
            cases h
            rw [Graph.print_succ Floats.write hh fl hfr]
            show (Exec.ok (text "[" ++ Graph.printBytes bs ++ text "]", setFlag fl r true) >>= _) = _
            rw [Graph.printBytes_eq, Exec.bind_ok]
            show Exec.ok (_, _) = _
            rw [Graph.set_set fl r hfr]
            rfl

/-- Output was written. -/
theorem Inv.write [Floats] (ok : S.Ok) (hi : Inv S e σ s) (t : Text) :
    Inv S e { σ with out := σ.out ++ t } ⟨{ s.w with out := s.w.out ++ t }, s.funs⟩ :=
  have l : Le [] e s e ⟨{ s.w with out := s.w.out ++ t }, s.funs⟩ :=
    .grow (t := []) (by show s.w.heap = _; simp) (fun _ _ => rfl) (fun _ _ => rfl) (fun _ _ => rfl) (fun _ _ => rfl) fun _ _ => rfl
  { err := hi.err
    base := hi.base
    tabo := hi.tabo
    tabt := hi.tabt
    bins := by
      obtain ⟨L, h1, h2⟩ := hi.bins
      exact ⟨L, h1.le l, h2⟩
    out := by show s.w.out ++ t = _; rw [hi.out, List.append_assoc]
    len := hi.len
    nodup := hi.nodup
    low := hi.low
    cells := fun a c r hc hr => (hi.cells a c r hc hr).le l rfl }

theorem Le.write (D : List Ref) (e : Emb) (s : SSt World) (t : Text) :
    Le D e s e ⟨{ s.w with out := s.w.out ++ t }, s.funs⟩ :=
  .grow (t := []) (by show s.w.heap = _; simp) (fun _ _ => rfl) (fun _ _ => rfl) (fun _ _ => rfl) (fun _ _ => rfl) fun _ _ => rfl

theorem print_loop [Floats] (ok : S.Ok) : ∀ {vs : List Val} {rs : List Ref} {σ : Store} {s : SSt World},
    Inv S e σ s → All2 (Rep e s) rs vs →
    match printAll vs σ with
    | .ok σ' _ => ∃ w, printNative Floats.write rs s.w = .ok w (.done []) ∧ Le D e s e ⟨w, s.funs⟩ ∧ Inv S e σ' ⟨w, s.funs⟩
    | .off => True
    | _ => False
  | [], [], σ, s, hi, _ => ⟨s.w, rfl, .refl _ _ _, hi⟩
  | [], _ :: _, _, _, _, h => h.elim
  | _ :: _, [], _, _, _, h => h.elim
  | v :: vs, r :: rs, σ, s, hi, ⟨h, hs⟩ => by
    unfold printAll
    cases ht : showVal σ (σ.cells.length + printDepth) [] v with
    | none => trivial
    | some t =>
      dsimp only
      have hle : σ.cells.length + printDepth ≤ s.w.heap.length + 1 := by
        have := nodup_lt S.N s.w.heap.length e hi.nodup hi.low hi.base
        rw [hi.len] at this
        have h21 : 21 ≤ S.N := ok.statics
        unfold printDepth
        omega
      have hp := print_val hi _ (fl := fun _ => false) hle (fun r => ⟨nofun, fun ⟨a, ha, _⟩ => by cases ha⟩) ht h
      have l := fun D => Le.write D e s t
      have ih := print_loop ok (vs := vs) (rs := rs) (hi.write ok t) (Rep.all hs (l []))
      have hn : printNative Floats.write (r :: rs) s.w = printNative Floats.write rs { s.w with out := s.w.out ++ t } := by
        conv => lhs; unfold printNative
        rw [hp]
      cases hq : printAll vs { σ with out := σ.out ++ t } with
      | ok σ' u =>
        rw [hq] at ih
        obtain ⟨w, h1, h2, h3⟩ := ih
        exact ⟨w, hn.trans h1, (l D).trans h2, h3⟩
      | err o => rw [hq] at ih; exact ih
      | off => trivial
      | more => rw [hq] at ih; exact ih

/-! ## All of them -/

/-- What a native function returns. -/
def Done (e : Emb) (s : SSt World) (r : NRes) (vs : List Val) : Prop := ∃ rs, r = .done rs ∧ All2 (Rep e s) rs vs

theorem argsOf_rep : ∀ {rs : List Ref} {vs : List Val} {ts : List (List Nat)}, All2 (Rep e s) rs vs →
    texts vs = some ts →
    argsOf s.w.heap rs = .ok ((ts.map fun t => t.map Utf8.Spec.encode).map fun ps => .str (Str.mk ps)) ∧ ∀ t ∈ ts, Plain t
  | [], [], ts, _, h => by cases h; exact ⟨rfl, by simp⟩
  | [], _ :: _, _, h, _ => h.elim
  | _ :: _, [], _, h, _ => h.elim
  | r :: rs, v :: vs, ts, ⟨hr, hs⟩, h => by
    cases v with
    | str t =>
      unfold texts at h
      cases hq : texts vs with
      | none => rw [hq] at h; cases h
      | some us =>
        rw [hq] at h
        cases h
        obtain ⟨h1, h2⟩ := argsOf_rep hs hq
        refine ⟨?_, fun u hu => ?_⟩
        · rw [argsOf_cons hr.1 h1]
          show Exec.ok (Builtin.Arg.str (Str.Spec.ofText t) :: _) = _
          rw [Str.ofText_eq]
          rfl
        · rcases List.mem_cons.1 hu with rfl | hu
          · exact hr.2
          · exact h2 u hu
    | _ => cases h

theorem argsOf_bad (hi : Inv S e σ s) : ∀ {rs : List Ref} {vs : List Val}, All2 (Rep e s) rs vs → 
    ∃ as, argsOf s.w.heap rs = .ok as ∧ (texts vs = none → ∃ a ∈ as, ∀ t, a ≠ Builtin.Arg.str t)
  | [], [], _ => ⟨[], rfl, nofun⟩
  | [], _ :: _, h => h.elim
  | _ :: _, [], h => h.elim
  | r :: rs, v :: vs, ⟨hr, hs⟩ => by
    obtain ⟨as, h1, h2⟩ := argsOf_bad hi hs
    obtain ⟨o, ho, hl⟩ := hr.looks hi
    refine ⟨_, argsOf_cons ho h1, fun ht => ?_⟩
    cases v with
    | str t =>
      unfold texts at ht
      cases hq : texts vs with
      | some us => rw [hq] at ht; cases ht
      | none =>
        obtain ⟨a, ha, hn⟩ := h2 hq
        exact ⟨a, List.mem_cons_of_mem _ ha, hn⟩
    | ref a =>
      refine ⟨_, List.mem_cons_self .., fun t => ?_⟩
      rcases hl with ⟨_, _, rfl, _⟩ | ⟨_, _, rfl, _⟩ | ⟨_, _, rfl, _⟩ | ⟨_, rfl, _⟩ <;> nofun
    | type u =>
      refine ⟨_, List.mem_cons_self .., fun t => ?_⟩
      rcases TyLooks.cases hl with ⟨_, rfl⟩ | rfl | ⟨_, _, rfl⟩ | ⟨_, rfl⟩ <;> nofun
    | _ =>
      refine ⟨_, List.mem_cons_self .., fun t => ?_⟩
      rw [show o = _ from hl]
      nofun

theorem encodeText_flatten (ts : List (List Nat)) :
    (ts.map fun t => t.map Utf8.Spec.encode).flatten = ts.flatten.map Utf8.Spec.encode := by
  rw [List.map_flatten]

theorem assert_loop (hi : Inv S e σ s) : ∀ {vs : List Val} {rs : List Ref}, All2 (Rep e s) rs vs →
    Sim S D e s Done (lift (LS S) (VM.assertAll rs) s) (assertAll vs σ)
  | [], [], _ => Sim.lift (w := s.w) (a := .done []) rfl (.refl _ _ _) hi ⟨[], rfl, trivial⟩
  | [], _ :: _, h => h.elim
  | _ :: _, [], h => h.elim
  | v :: vs, r :: rs, ⟨h, hs⟩ => by
    obtain ⟨o, ho, hl⟩ := h.looks hi
    have bad : o ≠ .bool true → Sim S D e s Done (lift (LS S) (VM.assertAll (r :: rs)) s) (.err σ.out) := by
      intro hn
      refine Sim.liftErr hi (w := s.w) ?_ rfl
      unfold VM.assertAll
      rw [ho]
      cases o with
      | bool b =>
        cases b with
        | true => exact absurd rfl hn
        | false => rfl
      | _ => rfl
    cases v with
    | bool b =>
      have hb : o = .bool b := hl
      subst hb
      cases b with
      | true =>
        have ih := assert_loop hi hs
        have e1 : VM.assertAll (r :: rs) s.w = VM.assertAll rs s.w := by
          conv => lhs; unfold VM.assertAll
          rw [ho]
        unfold lift at ih ⊢
        rw [e1]
        exact ih
      | false => exact bad nofun
    | str t => exact bad fun q => by rw [hl.1] at q; cases q
    | ref a =>
      refine bad fun q => ?_
      rcases hl with ⟨_, _, h, _⟩ | ⟨_, _, h, _⟩ | ⟨_, _, h, _⟩ | ⟨_, h, _⟩ <;> rw [q] at h <;> cases h
    | type t =>
      refine bad fun q => ?_
      rcases TyLooks.cases hl with ⟨_, h⟩ | h | ⟨_, _, h⟩ | ⟨_, h⟩ <;> rw [q] at h <;> cases h
    | _ => exact bad fun q => by rw [show o = _ from hl] at q; cases q

theorem ord_text {c : Nat} {t : List Nat} (h : Plain (c :: t)) :
    Builtin.ord (.str (Str.Spec.ofText (c :: t))) = .ok (.int c) := by
  have hb : (Str.Spec.ofText (c :: t)).bytes = (Utf8.Spec.encode c).length + (Utf8.Spec.encodeText t).length := by
    show (Utf8.Spec.encodeText (c :: t)).length = _
    unfold Utf8.Spec.encodeText
    rw [List.flatMap_cons, List.length_append]
  have hbd : (Str.Spec.ofText (c :: t)).body = [] ++ Utf8.Spec.encode c ++ (Utf8.Spec.encodeText t ++ [0]) := by
    show Utf8.Spec.encodeText (c :: t) ++ [0] = _
    unfold Utf8.Spec.encodeText
    rw [List.flatMap_cons]
    simp
  obtain ⟨hne, hd⟩ := Utf8.isUnit_encode c (h c (List.mem_cons_self ..)).2
  have hpos : 0 < (Utf8.Spec.encode c).length := List.length_pos_iff.2 hne
  unfold Builtin.ord
  dsimp only
  rw [if_neg (by rw [hb]; omega), hb, hbd]
  have := hd [] (Utf8.Spec.encodeText t ++ [0]) ((Utf8.Spec.encode c).length + (Utf8.Spec.encodeText t).length) (by omega)
  rw [List.length_nil] at this
  rw [this]

/-- A native function that makes an object. -/
theorem sim_prim [Floats] (ok : S.Ok) (hi : Inv S e σ s) {f : World → Out World NRes} {o : Obj} {v : Val}
    (hf : f s.w = (mk s.w o).bind fun r w => .ok w (.done [r]))
    (hr : ∀ s' : SSt World, ∀ r, s'.w.heap[r]? = some o → Rep e s' r v) :
    Sim S D e s Done (lift (LS S) f s) (.ok σ [v]) :=
  Sim.lift (w := (s.w.alloc o).1) (a := .done [(s.w.alloc o).2]) (by rw [hf]; rfl) (.alloc D e s o) (hi.alloc ok o)
    ⟨[_], rfl, (⟨hr _ _ (alloc_get _ _), trivial⟩ : All2 _ [_] [_])⟩

theorem onArgs_err {w : World} {args : List Ref} {as : List Builtin.Arg} {f : List Builtin.Arg → Exec Builtin.Ret}
    (ha : argsOf w.heap args = .ok as) (hf : f as = .err) : onArgs f args w = .err w := by
  unfold onArgs
  rw [ha, Exec.bind_ok, hf]
  rfl

/-! ### Types of values -/

theorem itemsOf_sim {f : Val → Val → Option Bool} {g : Bool → Nat → Nat → Exec (Bool × Bool)}
    (hf : ∀ {t r tv v b}, Rep e s t tv → Rep e s r v → f tv v = some b → g false t r = .ok (b, false)) :
    ∀ {ts rs : List Ref} {tvs vs : List Val} {b : Bool}, All2 (Rep e s) ts tvs → All2 (Rep e s) rs vs →
      itemsOf f tvs vs = some b → Graph.itemsOf g ts rs false = .ok (b, false)
  | [], _, [], _, _, _, _, h => by cases h; rfl
  | [], _, _ :: _, _, _, h, _, _ => h.elim
  | _ :: _, _, [], _, _, h, _, _ => h.elim
  | _ :: _, [], _ :: _, [], _, _, _, h => by cases h
  | _ :: _, [], _ :: _, _ :: _, _, _, h, _ => h.elim
  | _ :: _, _ :: _, _ :: _, [], _, _, h, _ => h.elim
  | t :: ts, r :: rs, tv :: tvs, v :: vs, b, ⟨h1, h2⟩, ⟨h3, h4⟩, h => by
    unfold itemsOf at h
    unfold Graph.itemsOf
    cases hq : f tv v with
    | none => rw [hq] at h; cases h
    | some c =>
      rw [hq] at h
      rw [hf h1 h3 hq, Exec.bind_ok]
      cases c with
      | false => cases h; rfl
      | true => exact itemsOf_sim hf h2 h4 h

theorem entriesOf_sim [Floats] (ok : S.Ok) (hi : Inv S e σ s) {f : Val → Val → Option Bool} {g : Bool → Nat → Nat → Exec (Bool × Bool)}
    (hf : ∀ {t r tv v b}, Rep e s t tv → Rep e s r v → f tv v = some b → g false t r = .ok (b, false))
    {rs : List (Ref × Ref)} {vs : List (Val × Val)} (hr : All2 (Rep2 e s) rs vs) (ha : ∀ q ∈ vs, atom q.1 = true) :
    ∀ {ts : List (Ref × Ref)} {tvs : List (Val × Val)} {b : Bool}, All2 (Rep2 e s) ts tvs → (∀ q ∈ tvs, atom q.1 = true) →
      entriesOf f tvs vs = some b →
      Graph.entriesOf g (fun k e => Graph.lookup S.C.hit s.w.heap k rs e) ts false = .ok (b, false)
  | [], [], _, _, _, h => by cases h; rfl
  | [], _ :: _, _, h, _, _ => h.elim
  | _ :: _, [], _, h, _, _ => h.elim
  | t :: ts, tv :: tvs, b, ⟨h1, h2⟩, hat, h => by
    unfold entriesOf at h
    unfold Graph.entriesOf
    obtain ⟨o, e1, e2⟩ := lookup_map ok hi h1.1 (hat tv (List.mem_cons_self ..)) hr ha
    dsimp only
    rw [e1, Exec.bind_ok]
    cases hq : lookupKey tv.1 vs with
    | none =>
      rw [hq] at h e2
      cases h
      cases o with
      | none => rfl
      | some _ => exact e2.elim
    | some v =>
      rw [hq] at h e2
      cases o with
      | none => exact e2.elim
      | some r =>
        dsimp only at h ⊢
        cases hc : f tv.2 v with
        | none => rw [hc] at h; cases h
        | some c =>
          rw [hc] at h
          rw [hf h1.2 e2 hc, Exec.bind_ok]
          cases c with
          | false => cases h; rfl
          | true => exact entriesOf_sim ok hi hf hr ha h2 (fun q hq => hat q (List.mem_cons_of_mem _ hq)) h

/-- The object of a value or of a part of a union. -/
def RepP (e : Emb) (s : SSt World) (r : Ref) : Val → Prop
  | .type t => RepTy e s.w.heap r t
  | v => Rep e s r v

theorem Rep.toP {r : Ref} {v : Val} (h : Rep e s r v) : RepP e s r v := by
  cases v with
  | type t => exact h.1
  | _ => exact h

theorem isOf_sim [Floats] (ok : S.Ok) (hi : Inv S e σ s) : ∀ (n : Nat) {m : Nat} {t r : Ref} {tv v : Val} {b : Bool}, n ≤ m →
    RepP e s t tv → Rep e s r v → isOf σ n tv v = some b →
    Graph.isTypeOf S.C.hit s.w.heap m false t r = .ok (b, false)
  | 0, _, _, _, _, _, _, _, _, _, h => by cases h
  | n + 1, 0, _, _, _, _, _, hm, _, _, _ => absurd hm (Nat.not_succ_le_zero n)
  | n + 1, m + 1, t, r, tv, v, b, hm, ht, hr, h => by
    have hm' : n ≤ m := Nat.le_of_succ_le_succ hm
    obtain ⟨o, ho, hl⟩ := hr.looks hi
    have hbody : ∀ {ot : Obj}, s.w.heap[t]? = some ot → Graph.isTypeOf S.C.hit s.w.heap (m + 1) false t r =
        Graph.typeBody (Graph.isTypeOf S.C.hit s.w.heap m) S.C.hit s.w.heap false r o ot :=
      fun hot => Graph.isTypeOf_succ _ hot ho
    unfold isOf at h
    cases hk : kindOf σ v with
    | none => rw [hk] at h; cases h
    | some k =>
      rw [hk] at h
      dsimp only at h
      have hok := hl.kind hk
      cases tv with
      | type u =>
        cases u with
        | kind k' =>
          cases h
          rw [hbody (show s.w.heap[t]? = some (.type k') from ht), ← hok]
          rfl
        | any =>
          cases h
          rw [hbody (show s.w.heap[t]? = some .any from ht)]
          rfl
        | sum x y =>
          obtain ⟨p, q, hs, hx, hy⟩ := show RepTy e s.w.heap t (.sum x y) from ht
          rw [hbody hs]
          dsimp only at h
          show (Graph.isTypeOf S.C.hit s.w.heap m false p r >>= _) = _
          cases hc : isOf σ n (.type x) v with
          | none => rw [hc] at h; cases h
          | some c =>
            rw [hc] at h
            rw [isOf_sim ok hi n hm' (show RepP e s p (.type x) from hx) hr hc, Exec.bind_ok]
            cases c with
            | true => cases h; rfl
            | false => exact isOf_sim ok hi n hm' (show RepP e s q (.type y) from hy) hr h
        | nullable x =>
          obtain ⟨p, hs, hx⟩ := show RepTy e s.w.heap t (.nullable x) from ht
          rw [hbody hs]
          dsimp only at h
          show (if o.kind = .none then _ else Graph.isTypeOf S.C.hit s.w.heap m false p r) = _
          rw [hok]
          by_cases q : k = .none
          · rw [if_pos q] at h ⊢
            cases h
            rfl
          · rw [if_neg q] at h ⊢
            exact isOf_sim ok hi n hm' (show RepP e s p (.type x) from hx) hr h
        | cell a => exact isOf_sim ok hi n (Nat.le_succ_of_le hm') (show RepP e s t (.ref a) from ht) hr h
        | other =>
          obtain ⟨ot, hot, hc⟩ := show RepTy e s.w.heap t .other from ht
          cases h
          rw [hbody hot]
          cases ot <;> first | exact hc.1.elim | exact absurd rfl hc.2.1 | exact absurd rfl hc.2.2.1 | exact absurd rfl hc.2.2.2 | rfl
      | ref a =>
        obtain ⟨ot, hot, hlt⟩ := Rep.looks hi (show Rep e s t (.ref a) from ht)
        rw [hbody hot]
        dsimp only at h
        have cell : ∀ {x : Ref} {c : Nat} {d : Cell}, Rep e s x (.ref c) → σ.cells[c]? = some d → Holds e s x d :=
          fun hx hd => hi.cells _ _ _ hd hx
        cases hca : σ.cells[a]? with
        | none => rw [hca] at h; cases h
        | some ca =>
          rw [hca] at h
          have ha := cell ht hca
          cases ca with
          | scope _ => cases h
          | buffer _ =>
            cases h
            have ha' : s.w.heap[t]? = _ := ha
            rw [hot] at ha'
            cases ha'
            rfl
          | list ts =>
            obtain ⟨rt, h1, h2⟩ := ha
            rw [hot] at h1
            cases h1
            have no : (∀ l, o ≠ .list l) → some false = some b →
                Graph.typeBody (Graph.isTypeOf S.C.hit s.w.heap m) S.C.hit s.w.heap false r o (.list rt) = .ok (b, false) := by
              intro hno hb
              cases hb
              cases o with
              | list l => exact absurd rfl (hno l)
              | _ => rfl
            cases v with
            | ref c =>
              dsimp only at h
              obtain ⟨cc, hcc⟩ : ∃ cc, σ.cells[c]? = some cc := by
                cases hx : σ.cells[c]? with
                | some cc => exact ⟨cc, rfl⟩
                | none => simp only [kindOf, hx] at hk; cases hk
              rw [hcc] at h
              have hb := cell hr hcc
              cases cc with
              | list vs =>
                obtain ⟨rr, h3, h4⟩ := hb
                rw [ho] at h3
                cases h3
                exact itemsOf_sim (fun a b => isOf_sim ok hi n hm' a.toP b) h2 h4 h
              | map vs =>
                obtain ⟨rr, h3, h4⟩ := hb
                rw [ho] at h3
                cases h3
                exact no nofun h
              | buffer bs =>
                have h3 : s.w.heap[r]? = _ := hb
                rw [ho] at h3
                cases h3
                exact no nofun h
              | scope env => simp only [kindOf, hcc] at hk; cases hk
            | str x => exact no (by rw [hl.1]; nofun) h
            | type u =>
              refine no ?_ h
              rcases TyLooks.cases hl with ⟨_, rfl⟩ | rfl | ⟨_, _, rfl⟩ | ⟨_, rfl⟩ <;> nofun
            | _ => exact no (by rw [show o = _ from hl]; nofun) h
          | map ts =>
            obtain ⟨rt, h1, h2, hat⟩ := ha
            rw [hot] at h1
            cases h1
            have no : (∀ l, o ≠ .map l) → some false = some b →
                Graph.typeBody (Graph.isTypeOf S.C.hit s.w.heap m) S.C.hit s.w.heap false r o (.map rt) = .ok (b, false) := by
              intro hno hb
              cases hb
              cases o with
              | map l => exact absurd rfl (hno l)
              | _ => rfl
            cases v with
            | ref c =>
              dsimp only at h
              obtain ⟨cc, hcc⟩ : ∃ cc, σ.cells[c]? = some cc := by
                cases hx : σ.cells[c]? with
                | some cc => exact ⟨cc, rfl⟩
                | none => simp only [kindOf, hx] at hk; cases hk
              rw [hcc] at h
              have hb := cell hr hcc
              cases cc with
              | map vs =>
                obtain ⟨rr, h3, h4, hbt⟩ := hb
                rw [ho] at h3
                cases h3
                exact entriesOf_sim ok hi (fun a b => isOf_sim ok hi n hm' a.toP b) h4 hbt h2 hat h
              | list vs =>
                obtain ⟨rr, h3, h4⟩ := hb
                rw [ho] at h3
                cases h3
                exact no nofun h
              | buffer bs =>
                have h3 : s.w.heap[r]? = _ := hb
                rw [ho] at h3
                cases h3
                exact no nofun h
              | scope env => simp only [kindOf, hcc] at hk; cases hk
            | str x => exact no (by rw [hl.1]; nofun) h
            | type u =>
              refine no ?_ h
              rcases TyLooks.cases hl with ⟨_, rfl⟩ | rfl | ⟨_, _, rfl⟩ | ⟨_, rfl⟩ <;> nofun
            | _ => exact no (by rw [show o = _ from hl]; nofun) h
      | str x => cases h; rw [hbody (show Rep e s t (.str x) from ht).1]; rfl
      | fn f c => cases h; rw [hbody (show Rep e s t (.fn f c) from ht).1]; rfl
      | prim p => cases h; rw [hbody (show Rep e s t (.prim p) from ht).1]; rfl
      | lib l => cases h; rw [hbody (show Rep e s t (.lib l) from ht).1]; rfl
      | _ => cases h; rw [hbody ht]; rfl

/-! ### Names of types -/

theorem plain_name (k : Kind) : Plain ((text k.name).map (·.toNat)) := by
  intro c hc
  have : ∀ c ∈ (text k.name).map (·.toNat), 0 < c ∧ c ≤ 0x10FFFF := by cases k <;> decide +kernel
  exact this c hc

theorem name_bytes (k : Kind) : Utf8.Spec.encodeText ((text k.name).map (·.toNat)) = text k.name := by
  cases k <;> decide +kernel

theorem name_nul (k : Kind) : (0 : UInt8) ∉ text k.name := by cases k <;> decide +kernel

/-! ### Keys -/

theorem All2.both {α β γ : Type} {R : α → β → Prop} {f : γ → α} {g : γ → β} :
    ∀ {l : List γ}, (∀ x ∈ l, R (f x) (g x)) → All2 R (l.map f) (l.map g)
  | [], _ => trivial
  | x :: l, h => ⟨h x (List.mem_cons_self ..), All2.both fun y hy => h y (List.mem_cons_of_mem _ hy)⟩

theorem All2.fst {rs : List (Ref × Ref)} {es : List (Val × Val)} : All2 (Rep2 e s) rs es →
    All2 (Rep e s) (rs.map (·.1)) (es.map (·.1)) := by
  induction rs generalizing es with
  | nil =>
    cases es with
    | nil => exact fun _ => trivial
    | cons _ _ => exact fun h => h.elim
  | cons r rs ih =>
    cases es with
    | nil => exact fun h => h.elim
    | cons _ _ => exact fun h => ⟨h.1.1, ih h.2⟩

/-- A list of the first integers. -/
theorem sim_consecutive [Floats] (ok : S.Ok) (hi : Inv S e σ s) (n : Nat) {f : World → Out World NRes}
    (hf : f s.w = .ok (consecutive (s.w.alloc (.list [])).2 n 0 [] (s.w.alloc (.list [])).1) (.done [(s.w.alloc (.list [])).2])) :
    Sim S D e s Done (lift (LS S) f s)
      (.ok { σ with cells := σ.cells ++ [.list ((List.range n).map fun (i : Nat) => .int i)] } [.ref σ.cells.length]) := by
  have ha := alloc_heap s.w (.list [])
  have hg : statics.length ≤ (s.w.alloc (.list [])).2 := by
    show statics.length ≤ (statics ++ s.w.dyn).length
    simp
  have hl : (s.w.alloc (.list [])).2 < (s.w.alloc (.list [])).1.heap.length := by
    rw [ha, List.length_append]; exact Nat.lt_succ_self _
  have hlen : (s.w.alloc (.list [])).1.heap.length = s.w.heap.length + 1 := by rw [ha]; simp
  have h := consecutive_heap n 0 (s.w.alloc (.list [])).2 [] (s.w.alloc (.list [])).1 hg hl
  obtain ⟨r1, r2, r3, r4, r5, r6⟩ := consecutive_rest n 0 (s.w.alloc (.list [])).2 [] (s.w.alloc (.list [])).1
  generalize hw : VM.consecutive (s.w.alloc (.list [])).2 n 0 [] (s.w.alloc (.list [])).1 = w at h r1 r2 r3 r4 r5 r6 hf
  have h' : w.heap = s.w.heap ++ (.list ((List.range n).map fun j => s.w.heap.length + 1 + j) ::
      (List.range n).map fun j => Obj.int (j : Nat)) := by
    rw [h, hlen, ha]
    by_cases h0 : n = 0
    · subst h0; simp
    · rw [if_neg h0, List.append_assoc, show (s.w.alloc (.list [])).2 = s.w.heap.length from rfl,
        List.set_append_right _ _ (Nat.le_refl _), Nat.sub_self]
      simp
  have l : ∀ D, Le D e s e ⟨w, s.funs⟩ := fun D => Le.grow h' (fun x hx => by show w.clos x = _; rw [r2]; rfl)
    (fun x hx => by show w.fclo x = _; rw [r3]; rfl) (fun x hx => by show w.nat x = _; rw [r4]; rfl)
    (fun x hx => by show w.tab x = _; rw [r5]; rfl) (fun x hx => rfl)
  have hi' : Inv S e σ ⟨w, s.funs⟩ := hi.same ok (l []) (fun x hx => by
    show w.heap[x]? = _
    rw [h', List.getElem?_append_left (hi.low x hx).2]) (by show w.err = _; rw [r1]; exact hi.err) (by show w.out = _; rw [r6]; rfl)
  refine Sim.lift hf (Le.push (l D) (Nat.le_refl _)) (hi'.push ok (r := s.w.heap.length) (fun h => absurd (hi.low _ h).2 (Nat.lt_irrefl _))
    hi.base ?_) ⟨[_], rfl, (⟨at_push hi _, trivial⟩ : All2 _ [_] [_])⟩
  refine ⟨_, show w.heap[s.w.heap.length]? = _ by rw [h', List.getElem?_append_right (Nat.le_refl _), Nat.sub_self]; rfl,
    All2.both fun j hj => ?_⟩
  show w.heap[s.w.heap.length + 1 + j]? = _
  rw [h', List.getElem?_append_right (by omega), show s.w.heap.length + 1 + j - s.w.heap.length = j + 1 by omega,
    List.getElem?_cons_succ, List.getElem?_map, List.getElem?_range (List.mem_range.1 hj)]
  rfl

/-! ### Strings -/

theorem Looks.str_arg {o : Obj} {v : Val} (h : Looks σ o v) (hv : ∀ t, v ≠ .str t) : ∀ x, argOf o ≠ .str x := by
  cases v with
  | str t => exact absurd rfl (hv t)
  | ref a => rcases h with ⟨_, _, rfl, _⟩ | ⟨_, _, rfl, _⟩ | ⟨_, _, rfl, _⟩ | ⟨_, rfl, _⟩ <;> nofun
  | type t => rcases TyLooks.cases h with ⟨_, rfl⟩ | rfl | ⟨_, _, rfl⟩ | ⟨_, rfl⟩ <;> nofun
  | _ => rw [show o = _ from h]; nofun

/-- The optional integer that a value is. -/
theorem Looks.int_arg {o : Obj} {v : Val} (h : Looks σ o v) (d : Int) :
    match orInt d v with
    | some i => ∃ x : Option Int, x.getD d = i ∧ (∀ y ∈ x, y = i) ∧
        ((v = .none ∧ argOf o = .none ∧ x = none) ∨ (argOf o = .int i ∧ x = some i))
    | none => (∀ i, argOf o ≠ .int i) ∧ argOf o ≠ .none := by
  cases v with
  | none => exact ⟨none, rfl, nofun, .inl ⟨rfl, by rw [show o = _ from h]; rfl, rfl⟩⟩
  | int i => exact ⟨some i, rfl, fun y hy => (by cases hy; rfl), .inr ⟨by rw [show o = _ from h]; rfl, rfl⟩⟩
  | str t => rw [h.1]; exact ⟨nofun, nofun⟩
  | ref a => rcases h with ⟨_, _, rfl, _⟩ | ⟨_, _, rfl, _⟩ | ⟨_, _, rfl, _⟩ | ⟨_, rfl, _⟩ <;> exact ⟨nofun, nofun⟩
  | type t => rcases TyLooks.cases h with ⟨_, rfl⟩ | rfl | ⟨_, _, rfl⟩ | ⟨_, rfl⟩ <;> exact ⟨nofun, nofun⟩
  | _ => rw [show o = _ from h]; exact ⟨nofun, nofun⟩

theorem trimArgs_bad {a : Builtin.Arg} (h : ∀ x, a ≠ .str x) : trimArgs [a] = .err := by
  cases a with
  | str x => exact absurd rfl (h x)
  | _ => rfl

theorem toIntArgs_bad {a : Builtin.Arg} (h : ∀ x, a ≠ .str x) : toIntArgs [a] = .err := by
  cases a with
  | str x => exact absurd rfl (h x)
  | _ => rfl

theorem sliceArgs_bad {a b c : Builtin.Arg} (h : ∀ x, a ≠ .str x) : sliceArgs [a, b, c] = .err := by
  cases a with
  | str x => exact absurd rfl (h x)
  | _ => rfl

theorem sliceArgs_bad2 {x : Str.Str} {b c : Builtin.Arg} (h : (∀ i, b ≠ .int i) ∧ b ≠ .none) : sliceArgs [.str x, b, c] = .err := by
  cases b with
  | int x => exact absurd rfl (h.1 x)
  | none => exact absurd rfl h.2
  | _ => rfl

theorem sliceArgs_bad3 {x : Str.Str} {b c : Builtin.Arg} (h : (∀ i, c ≠ .int i) ∧ c ≠ .none) : sliceArgs [.str x, b, c] = .err := by
  cases c with
  | int x => exact absurd rfl (h.1 x)
  | none => exact absurd rfl h.2
  | _ => cases b <;> rfl

theorem sliceArgs_ok {x : Str.Str} {b c : Builtin.Arg} {o n : Option Int} (hb : (b = .none ∧ o = none) ∨ ∃ i, b = .int i ∧ o = some i)
    (hc : (c = .none ∧ n = none) ∨ ∃ i, c = .int i ∧ n = some i) : sliceArgs [.str x, b, c] = Builtin.slice x o n := by
  rcases hb with ⟨rfl, rfl⟩ | ⟨i, rfl, rfl⟩ <;> rcases hc with ⟨rfl, rfl⟩ | ⟨j, rfl, rfl⟩ <;> rfl

/-- A message that is returned. -/
theorem sim_fail [Floats] (ok : S.Ok) (hi : Inv S e σ s) {f : World → Out World NRes} {m : String}
    (hp : Plain ((text m).map (·.toNat))) (hb : Utf8.Spec.encodeText ((text m).map (·.toNat)) = text m)
    (hf : f s.w = retOf s.w (.fail m)) :
    Sim S D e s Done (lift (LS S) f s) (.ok σ [.none, .str ((text m).map (·.toNat))]) := by
  have hc := cstring_text hp (noNul_text hp)
  rw [hb] at hc
  refine Sim.lift (w := (s.w.alloc (.str (Str.Spec.ofText ((text m).map (·.toNat))))).1)
    (a := .done [0, (s.w.alloc (.str (Str.Spec.ofText ((text m).map (·.toNat))))).2]) ?_ (.alloc D e s _) (hi.alloc ok _)
    ⟨[0, _], rfl, ?_⟩
  rotate_left
  · have h1 := rep_none e ⟨(s.w.alloc (.str (Str.Spec.ofText ((text m).map (·.toNat))))).1, s.funs⟩
    have h2 : Rep e ⟨(s.w.alloc (.str (Str.Spec.ofText ((text m).map (·.toNat))))).1, s.funs⟩
      (s.w.alloc (.str (Str.Spec.ofText ((text m).map (·.toNat))))).2 (.str ((text m).map (·.toNat))) := ⟨alloc_get _ _, hp⟩
    exact ⟨h1, h2, trivial⟩
  rw [hf]
  show (outOf s.w (cstring (Graph.text m))).bind _ = _
  rw [hc]
  rfl

theorem sim_toInt [Floats] (ok : S.Ok) (hi : Inv S e σ s) {f : World → Out World NRes} {t : List Nat} (ht : Plain t)
    (hf : ∀ r, Builtin.toInt (Str.Spec.ofText t) = .ok r → f s.w = retOf s.w r) :
    Sim S D e s Done (lift (LS S) f s) (readInt t σ) := by
  have h := hf _ (toInt_text ht)
  show Sim S D e s Done _ ((if t.takeWhile (fun c => decide (48 ≤ c ∧ c ≤ 57)) = [] then
      pure [.none, .str ((text "String doesn't contain an integer").map (·.toNat))]
    else if 2 ^ 63 ≤ decimal (t.takeWhile fun c => decide (48 ≤ c ∧ c ≤ 57)) then
      pure [.none, .str ((text "An overflow occurred").map (·.toNat))]
    else if t.takeWhile (fun c => decide (48 ≤ c ∧ c ≤ 57)) ≠ t then
      pure [.none, .str ((text "String doesn't contain an integer").map (·.toNat))]
    else if decimal (t.takeWhile fun c => decide (48 ≤ c ∧ c ≤ 57)) < 2 ^ 31 then
      pure [.int (decimal (t.takeWhile fun c => decide (48 ≤ c ∧ c ≤ 57)))]
    else leave : B (List Val)) σ)
  generalize t.takeWhile (fun c => decide (48 ≤ c ∧ c ≤ 57)) = ds at h ⊢
  by_cases h1 : ds = []
  · rw [if_pos h1] at h ⊢
    exact sim_fail ok hi (by decide +kernel) (by decide +kernel) h
  rw [if_neg h1] at h ⊢
  by_cases h2 : 2 ^ 63 ≤ decimal ds
  · rw [if_pos h2] at h ⊢
    exact sim_fail ok hi (by decide +kernel) (by decide +kernel) h
  rw [if_neg h2] at h ⊢
  by_cases h3 : ds ≠ t
  · rw [if_pos h3] at h ⊢
    exact sim_fail ok hi (by decide +kernel) (by decide +kernel) h
  rw [if_neg h3] at h ⊢
  by_cases h4 : decimal ds < 2 ^ 31
  · rw [if_pos h4]
    rw [toI32_of_isI32 (by unfold IsI32; omega)] at h
    exact sim_prim ok hi (o := .int (decimal ds)) h fun s' r hr => hr
  · rw [if_neg h4]
    trivial

theorem fits64_i64 {i : Int} (h : fits64 i = true) : IsI64 i := by
  unfold fits64 at h
  have := of_decide_eq_true h
  unfold IsI64
  omega

theorem sim_slice [Floats] (ok : S.Ok) (hi : Inv S e σ s) {f : World → Out World NRes} {t : List Nat} (ht : Plain t) {o n : Val} {oo on : Obj}
    (ho : Looks σ oo o) (hn : Looks σ on n)
    (hf : ∀ r, sliceArgs [.str (Str.Spec.ofText t), argOf oo, argOf on] = .ok r → f s.w = retOf s.w r)
    (he : sliceArgs [.str (Str.Spec.ofText t), argOf oo, argOf on] = .err → f s.w = .err s.w) :
    Sim S D e s Done (lift (LS S) f s) (sliceText t o n σ) := by
  unfold sliceText
  by_cases hl : (Utf8.Spec.encodeText t).length < 2 ^ 31
  · rw [if_pos hl]
    have h1 := ho.int_arg 0
    cases hq : orInt 0 o with
    | none =>
      rw [hq] at h1
      exact Sim.liftErr hi (w := s.w) (he (sliceArgs_bad2 h1)) rfl
    | some off =>
      rw [hq] at h1
      obtain ⟨x, hx, hxi, hx'⟩ := h1
      have h2 := hn.int_arg ((Utf8.Spec.encodeText t).length - off)
      dsimp only
      cases hq' : orInt ((Utf8.Spec.encodeText t).length - off) n with
      | none =>
        rw [hq'] at h2
        exact Sim.liftErr hi (w := s.w) (he (sliceArgs_bad3 h2)) rfl
      | some len =>
        rw [hq'] at h2
        obtain ⟨y, hy, hyi, hy'⟩ := h2
        dsimp only
        have hs : sliceArgs [.str (Str.Spec.ofText t), argOf oo, argOf on] = Builtin.slice (Str.Spec.ofText t) x y :=
          sliceArgs_ok (hx'.imp (fun h => h.2) fun h => ⟨_, h⟩) (hy'.imp (fun h => h.2) fun h => ⟨_, h⟩)
        by_cases hfit : fits64 off = true ∧ fits64 len = true
        · rw [if_pos hfit]
          have key := slice_text ht hl x y (fun v hv => by rw [hxi v hv]; exact fits64_i64 hfit.1)
            (fun v hv => by rw [hyi v hv]; exact fits64_i64 hfit.2)
          rw [hx, hy] at key
          by_cases hin : 0 ≤ off ∧ 0 ≤ len ∧ off + len ≤ (Utf8.Spec.encodeText t).length
          · rw [if_pos hin]
            cases hr : readText (((Utf8.Spec.encodeText t).drop off.toNat).take len.toNat) with
            | none =>
              dsimp only
              cases hbr : broken (((Utf8.Spec.encodeText t).drop off.toNat).take len.toNat) with
              | false => trivial
              | true => exact Sim.liftErr hi (w := s.w) (he (hs.trans (key.2.2 hin.1 hin.2.1 hin.2.2 hbr))) rfl
            | some u =>
              obtain ⟨hu, hu'⟩ := readText_eq hr
              exact sim_prim ok hi (o := .str (Str.Spec.ofText u)) (hf _ (hs.trans (key.1 u hu hin.1 hin.2.1 hin.2.2 hu'))) fun s' r hr => ⟨hr, hu⟩
          · rw [if_neg hin]
            exact Sim.liftErr hi (w := s.w) (he (hs.trans (key.2.1 hin))) rfl
        · rw [if_neg hfit]
          trivial
  · rw [if_neg hl]
    trivial

/-! ### Mathematics and buffers -/

theorem Looks.float_arg {o : Obj} {v : Val} (h : Looks σ o v) (hv : ∀ x, v ≠ .float x) : ∀ x, argOf o ≠ .float x := by
  cases v with
  | float x => exact absurd rfl (hv x)
  | str t => rw [h.1]; nofun
  | ref a => rcases h with ⟨_, _, rfl, _⟩ | ⟨_, _, rfl, _⟩ | ⟨_, _, rfl, _⟩ | ⟨_, rfl, _⟩ <;> nofun
  | type t => rcases TyLooks.cases h with ⟨_, rfl⟩ | rfl | ⟨_, _, rfl⟩ | ⟨_, rfl⟩ <;> nofun
  | _ => rw [show o = _ from h]; nofun

theorem Looks.no_int_arg {o : Obj} {v : Val} (h : Looks σ o v) (hv : ∀ x, v ≠ .int x) : ∀ x, argOf o ≠ .int x := by
  cases v with
  | int x => exact absurd rfl (hv x)
  | str t => rw [h.1]; nofun
  | ref a => rcases h with ⟨_, _, rfl, _⟩ | ⟨_, _, rfl, _⟩ | ⟨_, _, rfl, _⟩ | ⟨_, rfl, _⟩ <;> nofun
  | type t => rcases TyLooks.cases h with ⟨_, rfl⟩ | rfl | ⟨_, _, rfl⟩ | ⟨_, rfl⟩ <;> nofun
  | _ => rw [show o = _ from h]; nofun

theorem Looks.buffer_arg {o : Obj} {v : Val} (h : Looks σ o v) (hv : ∀ x, v ≠ .ref x) : ∀ b n, argOf o ≠ .buffer b n := by
  cases v with
  | ref x => exact absurd rfl (hv x)
  | str t => rw [h.1]; nofun
  | type t => rcases TyLooks.cases h with ⟨_, rfl⟩ | rfl | ⟨_, _, rfl⟩ | ⟨_, rfl⟩ <;> nofun
  | _ => rw [show o = _ from h]; nofun

theorem roundArgs_bad {f : BitVec 64 → Exec Int} {a : Builtin.Arg} (h : ∀ x, a ≠ .float x) : roundArgs f [a] = .err := by
  cases a with
  | float x => exact absurd rfl (h x)
  | _ => rfl

theorem mathArgs_bad {f : BitVec 64 → BitVec 64} {a : Builtin.Arg} (h : ∀ x, a ≠ .float x) : mathArgs f [a] = .err := by
  cases a with
  | float x => exact absurd rfl (h x)
  | _ => rfl

theorem mathArgs2_bad {f : BitVec 64 → BitVec 64 → BitVec 64} {a b : Builtin.Arg}
    (h : (∀ x, a ≠ .float x) ∨ ∀ x, b ≠ .float x) : mathArgs2 f [a, b] = .err := by
  cases a with
  | float x =>
    cases b with
    | float y => rcases h with h | h <;> exact absurd rfl (h _)
    | _ => rfl
  | _ => cases b <;> rfl

theorem newArgs_bad {a : Builtin.Arg} (h : ∀ x, a ≠ .int x) : newArgs [a] = .err := by
  cases a with
  | int x => exact absurd rfl (h x)
  | _ => rfl

theorem toStringArgs_bad {a : Builtin.Arg} (h : ∀ b n, a ≠ .buffer b n) : toStringArgs [a] = .err := by
  cases a with
  | buffer b n => exact absurd rfl (h b n)
  | _ => rfl

theorem fromStringArgs_bad {a : Builtin.Arg} (h : ∀ x, a ≠ .str x) : fromStringArgs [a] = .err := by
  cases a with
  | str x => exact absurd rfl (h x)
  | _ => rfl

/-- A number whose whole part fits is finite. -/
theorem worth_finite {x : BitVec 64} {n : Int} (h : worth x = some n) :
    n = Num.scaled x ∧ (Round.finite x = true ∨ (fits64 (n / 2 ^ 1074) = false ∧ fits64 (-(-n / 2 ^ 1074)) = false)) := by
  unfold worth at h
  by_cases hn : Num.isNaN x = true
  · rw [if_pos hn] at h; cases h
  · rw [if_neg hn] at h
    cases h
    refine ⟨rfl, ?_⟩
    by_cases hf : Round.finite x = true
    · exact .inl hf
    · have hm : Num.mag x = 2047 * 2 ^ 52 := by
        unfold Num.isNaN at hn
        unfold Round.finite at hf
        rw [decide_eq_true_eq] at hn hf
        omega
      refine .inr ?_
      unfold Num.scaled
      rw [hm]
      cases Num.sign x with
      | true => rw [if_pos rfl]; decide +kernel
      | false => rw [if_neg (by decide)]; decide +kernel

theorem toLongLong_fits {n : Int} (h : fits64 n = true) : Round.toLongLong n = .ok n := by
  have := fits64_i64 h
  unfold IsI64 at this
  exact if_pos (by omega)

theorem floor_fits {x : BitVec 64} {n : Int} (h : worth x = some n) (hf : fits64 (n / 2 ^ 1074) = true) :
    Round.floor x = .ok (n / 2 ^ 1074) := by
  obtain ⟨rfl, hq⟩ := worth_finite h
  rcases hq with hq | hq
  · unfold Round.floor
    rw [if_pos hq]
    exact toLongLong_fits hf
  · rw [hq.1] at hf; cases hf

theorem ceil_fits {x : BitVec 64} {n : Int} (h : worth x = some n) (hf : fits64 (-(-n / 2 ^ 1074)) = true) :
    Round.ceil x = .ok (-(-n / 2 ^ 1074)) := by
  obtain ⟨rfl, hq⟩ := worth_finite h
  rcases hq with hq | hq
  · unfold Round.ceil
    rw [if_pos hq]
    exact toLongLong_fits hf
  · rw [hq.2] at hf; cases hf

/-- A whole number is returned, if it fits. -/
theorem sim_retInt [Floats] (ok : S.Ok) (hi : Inv S e σ s) {f : World → Out World NRes} {v : Int}
    (hf : fits64 v = true → f s.w = retOf s.w (.int v)) :
    Sim S D e s Done (lift (LS S) f s) ((do let v ← retInt v; pure [v] : B (List Val)) σ) := by
  show Sim S D e s Done _ (B.bind (retInt v) (fun v => pure [v]) σ)
  unfold B.bind retInt
  by_cases h : fits64 v = true
  · rw [if_pos h]
    exact sim_prim ok hi (o := .int v) (hf h) fun s' r hr => hr
  · rw [if_neg h]
    trivial

/-- A new buffer is returned. -/
theorem sim_buffer [Floats] (ok : S.Ok) (hi : Inv S e σ s) {f : World → Out World NRes} {bs : List UInt8}
    (hf : f s.w = retOf s.w (.buffer bs)) :
    Sim S D e s Done (lift (LS S) f s) ((do let a ← newCell (.buffer bs); pure [.ref a] : B (List Val)) σ) :=
  Sim.lift (w := (s.w.alloc (.buffer bs)).1) (a := .done [(s.w.alloc (.buffer bs)).2]) (by rw [hf]; rfl)
    (Le.push (.alloc D e s _) (Nat.le_refl _)) ((hi.alloc ok _).push ok (r := s.w.heap.length)
      (fun h => absurd (hi.low _ h).2 (Nat.lt_irrefl _)) hi.base (alloc_get _ _))
    ⟨[_], rfl, (⟨at_push hi _, trivial⟩ : All2 _ [_] [_])⟩

theorem toString_text {t : List Nat} (ht : Plain t) :
    toStringArgs [.buffer (Utf8.Spec.encodeText t) (Utf8.Spec.encodeText t).length] = .ok (.str (Str.Spec.ofText t)) := by
  have h1 := Utf8.strlen_units (Utf8.units_encodeText t ht.valid) []
  rw [List.append_nil, ← Utf8.encodeText_eq] at h1
  have h2 := Str.C03_fromString t ht.valid []
  rw [List.append_nil] at h2
  unfold toStringArgs
  dsimp only
  rw [h1]
  dsimp only
  rw [h2]
  rfl

theorem toString_broken {bs : List UInt8} (h : broken bs = true) :
    toStringArgs [.buffer bs bs.length] = .ok (.fail "Buffer doesn't contain valid UTF-8") := by
  have h1 := strlen_broken h []
  rw [List.append_nil] at h1
  unfold toStringArgs
  dsimp only
  rw [h1]

theorem fromString_text {t : List Nat} (ht : Plain t) (hl : (Utf8.Spec.encodeText t).length < 2 ^ 31) :
    fromStringArgs [.str (Str.Spec.ofText t)] = .ok (.buffer (Utf8.Spec.encodeText t)) := by
  have hb : (Str.Spec.ofText t).body = Utf8.Spec.encodeText t ++ [0] ∧ (Str.Spec.ofText t).bytes = (Utf8.Spec.encodeText t).length :=
    ⟨rfl, rfl⟩
  show (if _ then _ else _ : Exec Builtin.Ret) = _
  rw [if_neg (by rw [hb.1, hb.2, List.length_append]; omega), hb.1, hb.2, List.take_left]

theorem sim_native [Floats] (ok : S.Ok) (hi : Inv S e σ s) (p : Prim) {rs : List Ref} {vs : List Val} (hr : All2 (Rep e s) rs vs) :
    Sim S D e s Done (lift (LS S) ((LS S).native p.id rs) s) (p.run vs σ) := by
  cases p with
  | print =>
    have hp := ok.print
    have h := print_loop (D := D) ok hi hr
    show Sim S D e s Done _ (B.bind (printAll vs) (fun _ => pure []) σ)
    unfold B.bind
    cases hq : printAll vs σ with
    | ok σ' u =>
      rw [hq] at h
      obtain ⟨w, h1, h2, h3⟩ := h
      refine Sim.lift (w := w) (a := .done []) ?_ h2 h3 ⟨[], rfl, trivial⟩
      show S.C.native 11 rs s.w = _
      rw [hp]
      exact h1
    | err o => rw [hq] at h; exact h.elim
    | off => trivial
    | more => rw [hq] at h; exact h.elim
  | assert => exact assert_loop hi hr
  | cat =>
    show Sim S D e s Done _ ((match texts vs with
      | some ts => if (Utf8.Spec.encodeText ts.flatten).length < 2 ^ 31 then pure [.str ts.flatten] else leave
      | none => stop : B (List Val)) σ)
    cases ht : texts vs with
    | none =>
      obtain ⟨as, h1, h2⟩ := argsOf_bad hi hr
      refine Sim.liftErr hi (w := s.w) ?_ rfl
      exact onArgs_err h1 (Builtin.C61_cat_partial.2 as (h2 ht))
    | some ts =>
      dsimp only
      by_cases hl : (Utf8.Spec.encodeText ts.flatten).length < 2 ^ 31
      · rw [if_pos hl]
        obtain ⟨h1, h2⟩ := argsOf_rep hr ht
        have hpl : Plain ts.flatten := fun c hc => by
          obtain ⟨t, ht, hc⟩ := List.mem_flatten.1 hc
          exact h2 t ht c hc
        refine sim_prim ok hi (o := .str (Str.Spec.ofText ts.flatten)) ?_ fun s' r hr => ⟨hr, hpl⟩
        have hc := (Builtin.C61_cat_partial.1 (ts.map fun t => t.map Utf8.Spec.encode) (fun ps hps => by
          obtain ⟨t, ht, rfl⟩ := List.mem_map.1 hps
          exact Utf8.units_encodeText t (h2 t ht).valid)
          (by rw [encodeText_flatten, ← Utf8.encodeText_eq]; exact hl)).1
        show onArgs Builtin.cat rs s.w = _
        rw [onArgs_eq h1 hc]
        rw [encodeText_flatten, ← Str.ofText_eq]
        rfl
      · rw [if_neg hl]; trivial
  | count =>
    cases vs with
    | nil => trivial
    | cons v vs =>
      cases vs with
      | cons _ _ => trivial
      | nil =>
        cases rs with
        | nil => exact hr.elim
        | cons r rs =>
          cases rs with
          | cons _ _ => exact hr.2.elim
          | nil =>
            obtain ⟨hr, _⟩ := hr
            obtain ⟨o, ho, hl⟩ := hr.looks hi
            have hn : ∀ w, stdNative S.C 1 [r] s.w = w ↔ (match VM.countOf o with
                | some n => (mk s.w (.int n)).bind fun r w => .ok w (.done [r])
                | none => .err s.w) = w := by
              intro w
              show (match s.w.heap[r]? with
                | some o =>
                  match VM.countOf o with
                  | some n => (mk s.w (.int n)).bind fun r w => .ok w (.done [r])
                  | none => .err s.w
                | none => .ub) = w ↔ _
              rw [ho]
            show Sim S D e s Done _ ((match countOf σ v with
              | some n => .ok σ [.int n]
              | none =>
                match kindOf σ v with
                | some _ => .err σ.out
                | none => .off : R (List Val)))
            have good : ∀ n, VM.countOf o = some n →
                Sim S D e s Done (lift (LS S) ((LS S).native Prim.count.id [r]) s) (.ok σ [.int n]) := fun n h =>
              sim_prim ok hi (o := .int n) ((hn _).2 (by rw [h])) fun s' r hr => hr
            have bad : VM.countOf o = none →
                Sim S D e s Done (lift (LS S) ((LS S).native Prim.count.id [r]) s) (.err σ.out) := fun h =>
              Sim.liftErr hi (w := s.w) ((hn _).2 (by rw [h])) rfl
            cases v with
            | str t => exact good _ (by rw [hl.1]; rfl)
            | ref a =>
              rcases hl with ⟨rs, items, rfl, hc, hlen⟩ | ⟨rs, es, rfl, hc, hlen⟩ | ⟨rs, env, rfl, hc⟩ |
                ⟨bs, rfl, hc⟩
              · simp only [countOf, hc]
                exact good _ (by show some rs.length = _; rw [hlen])
              · simp only [countOf, hc]
                exact good _ (by show some rs.length = _; rw [hlen])
              · simp only [countOf, kindOf, hc]
                trivial
              · simp only [countOf, hc]
                exact good _ rfl
            | type t =>
              have hk : ∃ k, kindOf σ (.type t) = some k := by cases t <;> first | exact ⟨_, rfl⟩ | exact hl.elim
              obtain ⟨k, hk⟩ := hk
              have hb : VM.countOf o = none := by
                rcases TyLooks.cases hl with ⟨_, rfl⟩ | rfl | ⟨_, _, rfl⟩ | ⟨_, rfl⟩ <;> rfl
              rw [hk]
              exact bad hb
            | _ => exact bad (by rw [show o = _ from hl]; rfl)
  | type =>
    cases vs with
    | nil => trivial
    | cons v vs =>
      cases vs with
      | cons _ _ => trivial
      | nil =>
        cases rs with
        | nil => exact hr.elim
        | cons r rs =>
          cases rs with
          | cons _ _ => exact hr.2.elim
          | nil =>
            obtain ⟨hr, _⟩ := hr
            obtain ⟨o, ho, hl⟩ := hr.looks hi
            show Sim S D e s Done _ ((match kindOf σ v with
              | some k => .ok σ [.type (.kind k)]
              | none => .off : R (List Val)))
            cases hk : kindOf σ v with
            | none => trivial
            | some k =>
              refine Sim.lift (w := s.w) (a := .done [typeRef k]) ?_ (.refl _ _ _) hi
                ⟨[_], rfl, (⟨⟨typeRef_static k s.w, trivial⟩, trivial⟩ : All2 _ [_] [_])⟩
              show (VM.kindOf r s.w).bind _ = _
              unfold VM.kindOf
              rw [ho]
              show Out.ok s.w (NRes.done [typeRef o.kind]) = _
              rw [hl.kind hk]
  | istypeof =>
    cases vs with
    | nil => trivial
    | cons t vs =>
      cases vs with
      | nil => trivial
      | cons v vs =>
        cases vs with
        | cons _ _ => trivial
        | nil =>
          cases rs with
          | nil => exact hr.elim
          | cons tr rs =>
            cases rs with
            | nil => exact hr.2.elim
            | cons vr rs =>
              cases rs with
              | cons _ _ => exact hr.2.2.elim
              | nil =>
                obtain ⟨ht, hr, _⟩ := hr
                show Sim S D e s Done _ (B.bind (isA t v) (fun b => pure [.bool b]) σ)
                unfold B.bind isA
                cases hq : isOf σ typeDepth t v with
                | none => trivial
                | some b =>
                  have h := isOf_sim ok hi typeDepth ok.deep ht.toP hr hq
                  refine Sim.lift (w := s.w) (a := .done [boolRef b]) ?_ (.refl _ _ _) hi
                    ⟨[_], rfl, (⟨rep_bool e s b, trivial⟩ : All2 _ [_] [_])⟩
                  show (outOf s.w (Graph.isTypeOf S.C.hit s.w.heap S.C.fuel s.w.err tr vr)).bind _ = _
                  rw [show s.w.err = false from hi.err, h]
                  show Out.ok _ _ = _
                  rw [err_false hi.err]
  | typename =>
    cases vs with
    | nil => trivial
    | cons v vs =>
      cases vs with
      | cons _ _ => trivial
      | nil =>
        cases rs with
        | nil => exact hr.elim
        | cons r rs =>
          cases rs with
          | cons _ _ => exact hr.2.elim
          | nil =>
            obtain ⟨hr, _⟩ := hr
            obtain ⟨o, ho, hl⟩ := hr.looks hi
            show Sim S D e s Done _ ((match kindOf σ v with
              | some k => .ok σ [.str ((text k.name).map (·.toNat))]
              | none => .off : R (List Val)))
            cases hk : kindOf σ v with
            | none => trivial
            | some k =>
              have hp := plain_name k
              refine sim_prim ok hi (o := .str (Str.Spec.ofText ((text k.name).map (·.toNat)))) ?_ fun s' r hr => ⟨hr, hp⟩
              show (VM.kindOf r s.w).bind _ = _
              unfold VM.kindOf
              rw [ho]
              show (outOf s.w (cstring (Graph.text o.kind.name))).bind _ = _
              rw [hl.kind hk]
              have hc := cstring_text hp (by rw [name_bytes]; exact name_nul k)
              rw [name_bytes] at hc
              rw [hc]
              rfl
  | keysof =>
    cases vs with
    | nil => trivial
    | cons v vs =>
      cases vs with
      | cons _ _ => trivial
      | nil =>
        cases rs with
        | nil => exact hr.elim
        | cons r rs =>
          cases rs with
          | cons _ _ => exact hr.2.elim
          | nil =>
            obtain ⟨hr, _⟩ := hr
            obtain ⟨o, ho, hl⟩ := hr.looks hi
            have hn : (LS S).native Prim.keysof.id [r] s.w = (VM.keysOf r s.w).bind fun r w => .ok w (.done [r]) := rfl
            have none' : (∀ es, o ≠ .map es) → VM.countOf o = none →
                Sim S D e s Done (lift (LS S) ((LS S).native Prim.keysof.id [r]) s) (.ok σ [.none]) := by
              intro h1 h2
              refine Sim.lift (w := s.w) (a := .done [0]) ?_ (.refl _ _ _) hi
                ⟨[_], rfl, (⟨rep_none e s, trivial⟩ : All2 _ [_] [_])⟩
              rw [hn]
              unfold VM.keysOf
              rw [ho]
              cases o with
              | map es => exact absurd rfl (h1 es)
              | _ => dsimp only; rw [h2]; rfl
            have seq : ∀ n, (∀ es, o ≠ .map es) → VM.countOf o = some n →
                (LS S).native Prim.keysof.id [r] s.w =
                  .ok (consecutive (s.w.alloc (.list [])).2 n 0 [] (s.w.alloc (.list [])).1) (.done [(s.w.alloc (.list [])).2]) := by
              intro n h1 h2
              rw [hn]
              unfold VM.keysOf
              rw [ho]
              cases o with
              | map es => exact absurd rfl (h1 es)
              | _ => dsimp only; rw [h2]; rfl
            show Sim S D e s Done _ ((match keysOf σ v with
              | some ks => .ok { σ with cells := σ.cells ++ [.list ks] } [.ref σ.cells.length]
              | none =>
                match kindOf σ v with
                | some _ => .ok σ [.none]
                | none => .off : R (List Val)))
            cases v with
            | str t => exact sim_consecutive ok hi t.length (seq _ (by rw [hl.1]; nofun) (by rw [hl.1]; rfl))
            | ref a =>
              rcases hl with ⟨rs, items, rfl, hc, hlen⟩ | ⟨rs, es, rfl, hc, hlen⟩ | ⟨rs, env, rfl, hc⟩ |
                ⟨bs, rfl, hc⟩
              · simp only [keysOf, hc]
                exact sim_consecutive ok hi items.length (seq _ nofun (by show some rs.length = _; rw [hlen]))
              · simp only [keysOf, hc]
                obtain ⟨rs', h1, h2, -⟩ := hi.cells _ _ _ hc hr
                rw [ho] at h1
                cases h1
                refine Sim.lift (w := (s.w.alloc (.list (rs.map (·.1)))).1) (a := .done [(s.w.alloc (.list (rs.map (·.1)))).2]) ?_
                  (Le.push (.alloc D e s _) (Nat.le_refl _)) ((hi.alloc ok _).push ok (r := s.w.heap.length)
                    (fun h => absurd (hi.low _ h).2 (Nat.lt_irrefl _)) hi.base
                    ⟨_, alloc_get _ _, Rep.all (All2.fst h2) (.alloc D e s _)⟩)
                  ⟨[_], rfl, (⟨at_push hi _, trivial⟩ : All2 _ [_] [_])⟩
                rw [hn]
                unfold VM.keysOf
                rw [ho]
                rfl
              · simp only [keysOf, kindOf, hc]
                trivial
              · simp only [keysOf, hc]
                exact sim_consecutive ok hi bs.length (seq _ nofun rfl)
            | type t =>
              have hk : ∃ k, kindOf σ (.type t) = some k := by cases t <;> first | exact ⟨_, rfl⟩ | exact hl.elim
              obtain ⟨k, hk⟩ := hk
              have hb : VM.countOf o = none ∧ ∀ es, o ≠ .map es := by
                rcases TyLooks.cases hl with ⟨_, rfl⟩ | rfl | ⟨_, _, rfl⟩ | ⟨_, rfl⟩ <;> exact ⟨rfl, nofun⟩
              rw [hk]
              exact none' hb.2 hb.1
            | _ => exact none' (by rw [show o = _ from hl]; nofun) (by rw [show o = _ from hl]; rfl)
  | error =>
    cases vs with
    | nil => trivial
    | cons v vs =>
      cases vs with
      | cons _ _ => trivial
      | nil =>
        cases rs with
        | nil => exact hr.elim
        | cons r rs =>
          cases rs with
          | cons _ _ => exact hr.2.elim
          | nil => exact Sim.liftErr hi (w := s.w) rfl rfl
  | chr =>
    cases vs with
    | nil => trivial
    | cons v vs =>
      cases vs with
      | cons _ _ => cases v <;> trivial
      | nil =>
        cases rs with
        | nil => exact hr.elim
        | cons r rs =>
          cases rs with
          | cons _ _ => exact hr.2.elim
          | nil =>
            obtain ⟨hr, _⟩ := hr
            obtain ⟨o, ho, hl⟩ := hr.looks hi
            have ha : argsOf s.w.heap [r] = .ok [argOf o] := argsOf_cons ho rfl
            have bad : Builtin.chr (argOf o) = .err →
                Sim S D e s Done (lift (LS S) ((LS S).native Prim.chr.id [r]) s) (.err σ.out) := fun h =>
              Sim.liftErr hi (w := s.w) (onArgs_err ha h) rfl
            cases v with
            | int v =>
              show Sim S D e s Done _ ((if fits32 v then
                if v = 0 then leave else if 0 < v ∧ v ≤ 0x10FFFF then pure [.str [v.toNat]] else stop
                else leave : B (List Val)) σ)
              have ho' : o = .int v := hl
              subst ho'
              by_cases hf : fits32 v = true
              · rw [if_pos hf]
                have h32 := fits32_i32 hf
                unfold IsI32 at h32
                by_cases h0 : v = 0
                · rw [if_pos h0]; trivial
                · rw [if_neg h0]
                  by_cases h1 : 0 < v ∧ v ≤ 0x10FFFF
                  · rw [if_pos h1]
                    refine sim_prim ok hi (o := .str (Str.Spec.ofText [v.toNat])) ?_ fun s' r hr => ⟨hr, fun c hc => ?_⟩
                    · have hu : toU32 v = v.toNat := by unfold toU32; omega
                      have hc := (Builtin.chr_spec v).1 (by rw [hu]; omega)
                      rw [hu] at hc
                      have := onArgs_eq (f := fun as => match as with | [a] => Builtin.chr a | _ => .ub) ha hc
                      refine this.trans ?_
                      rw [Str.ofText_eq]
                      rfl
                    · rw [List.mem_singleton.1 hc]; omega
                  · rw [if_neg h1]
                    exact bad ((Builtin.chr_spec v).2 (by unfold toU32; omega))
              · rw [if_neg hf]; trivial
            | str t => exact bad (by rw [hl.1]; rfl)
            | ref a =>
              refine bad ?_
              rcases hl with ⟨_, _, rfl, _⟩ | ⟨_, _, rfl, _⟩ | ⟨_, _, rfl, _⟩ | ⟨_, rfl, _⟩ <;> rfl
            | type t =>
              rcases TyLooks.cases hl with ⟨_, rfl⟩ | rfl | ⟨_, _, rfl⟩ | ⟨_, rfl⟩ <;> exact bad rfl
            | _ => exact bad (by rw [show o = _ from hl]; rfl)
  | ord =>
    cases vs with
    | nil => trivial
    | cons v vs =>
      cases vs with
      | cons _ _ => cases v with
        | str t => cases t <;> trivial
        | _ => trivial
      | nil =>
        cases rs with
        | nil => exact hr.elim
        | cons r rs =>
          cases rs with
          | cons _ _ => exact hr.2.elim
          | nil =>
            obtain ⟨hr, _⟩ := hr
            obtain ⟨o, ho, hl⟩ := hr.looks hi
            have ha : argsOf s.w.heap [r] = .ok [argOf o] := argsOf_cons ho rfl
            have bad : Builtin.ord (argOf o) = .err →
                Sim S D e s Done (lift (LS S) ((LS S).native Prim.ord.id [r]) s) (.err σ.out) := fun h =>
              Sim.liftErr hi (w := s.w) (onArgs_err ha h) rfl
            cases v with
            | str t =>
              obtain ⟨ho', ht⟩ := hl
              subst ho'
              cases t with
              | nil => exact bad rfl
              | cons c t =>
                refine sim_prim ok hi (o := .int c) ?_ fun s' r hr => hr
                exact onArgs_eq (f := fun as => match as with | [a] => Builtin.ord a | _ => .ub) ha (ord_text ht)
            | ref a =>
              refine bad ?_
              rcases hl with ⟨_, _, rfl, _⟩ | ⟨_, _, rfl, _⟩ | ⟨_, _, rfl, _⟩ | ⟨_, rfl, _⟩ <;> rfl
            | type t =>
              rcases TyLooks.cases hl with ⟨_, rfl⟩ | rfl | ⟨_, _, rfl⟩ | ⟨_, rfl⟩ <;> exact bad rfl
            | _ => exact bad (by rw [show o = _ from hl]; rfl)
  | pow => unfold Prim.run; trivial
  | sliceUp => unfold Prim.run; trivial
  | floor =>
    rcases vs with _ | ⟨v, _ | ⟨_, _⟩⟩
    · trivial
    · rcases rs with _ | ⟨r, _ | ⟨_, _⟩⟩
      · exact hr.elim
      · obtain ⟨o, ho, hl⟩ := hr.1.looks hi
        have ha : argsOf s.w.heap [r] = .ok [argOf o] := argsOf_cons ho rfl
        have bad : (∀ t, v ≠ .float t) →
            Sim S D e s Done (lift (LS S) ((LS S).native Prim.floor.id [r]) s) (.err σ.out) := fun h =>
          Sim.liftErr hi (w := s.w) (onArgs_err (f := roundArgs Round.floor) ha (roundArgs_bad (hl.float_arg h))) rfl
        cases v with
        | float x =>
          have ho' : o = .float x := hl
          subst ho'
          show Sim S D e s Done _ ((match worth x with
            | some n => do
              let v ← retInt (n / 2 ^ 1074)
              pure [v]
            | none => leave : B (List Val)) σ)
          cases hw : worth x with
          | none => trivial
          | some n =>
            dsimp only
            refine sim_retInt ok hi fun hf => onArgs_eq (f := roundArgs Round.floor) ha ?_
            show (Round.floor x >>= _) = _
            rw [floor_fits hw hf]
            rfl
        | _ => exact bad nofun
      · exact hr.2.elim
    · cases v <;> trivial
  | ceil =>
    rcases vs with _ | ⟨v, _ | ⟨_, _⟩⟩
    · trivial
    · rcases rs with _ | ⟨r, _ | ⟨_, _⟩⟩
      · exact hr.elim
      · obtain ⟨o, ho, hl⟩ := hr.1.looks hi
        have ha : argsOf s.w.heap [r] = .ok [argOf o] := argsOf_cons ho rfl
        have bad : (∀ t, v ≠ .float t) →
            Sim S D e s Done (lift (LS S) ((LS S).native Prim.ceil.id [r]) s) (.err σ.out) := fun h =>
          Sim.liftErr hi (w := s.w) (onArgs_err (f := roundArgs Round.ceil) ha (roundArgs_bad (hl.float_arg h))) rfl
        cases v with
        | float x =>
          have ho' : o = .float x := hl
          subst ho'
          show Sim S D e s Done _ ((match worth x with
            | some n => do
              let v ← retInt (-(-n / 2 ^ 1074))
              pure [v]
            | none => leave : B (List Val)) σ)
          cases hw : worth x with
          | none => trivial
          | some n =>
            dsimp only
            refine sim_retInt ok hi fun hf => onArgs_eq (f := roundArgs Round.ceil) ha ?_
            show (Round.ceil x >>= _) = _
            rw [ceil_fits hw hf]
            rfl
        | _ => exact bad nofun
      · exact hr.2.elim
    · cases v <;> trivial
  | math f =>
    rcases vs with _ | ⟨v, _ | ⟨_, _⟩⟩
    · trivial
    · rcases rs with _ | ⟨r, _ | ⟨_, _⟩⟩
      · exact hr.elim
      · obtain ⟨o, ho, hl⟩ := hr.1.looks hi
        have ha : argsOf s.w.heap [r] = .ok [argOf o] := argsOf_cons ho rfl
        have hn : (LS S).native (Prim.math f).id [r] s.w = onArgs (mathArgs (Floats.fn f)) [r] s.w := by
          rw [← ok.math f]
          cases f <;> rfl
        have bad : (∀ t, v ≠ .float t) →
            Sim S D e s Done (lift (LS S) ((LS S).native (Prim.math f).id [r]) s) (.err σ.out) := fun h =>
          Sim.liftErr hi (w := s.w) (hn.trans (onArgs_err ha (mathArgs_bad (hl.float_arg h)))) rfl
        cases v with
        | float x =>
          have ho' : o = .float x := hl
          subst ho'
          exact sim_prim ok hi (o := .float (Floats.fn f x)) (hn.trans (onArgs_eq (f := mathArgs (Floats.fn f)) ha rfl))
            fun s' r hr => hr
        | _ => exact bad nofun
      · exact hr.2.elim
    · cases v <;> trivial
  | atan2 =>
    rcases vs with _ | ⟨v, _ | ⟨u, _ | ⟨_, _⟩⟩⟩
    · trivial
    · cases v <;> trivial
    · rcases rs with _ | ⟨r, _ | ⟨q, _ | ⟨_, _⟩⟩⟩
      · exact hr.elim
      · exact hr.2.elim
      · obtain ⟨hr, hq, _⟩ := hr
        obtain ⟨o, ho, hl⟩ := hr.looks hi
        obtain ⟨p, hp, hk⟩ := hq.looks hi
        have ha : argsOf s.w.heap [r, q] = .ok [argOf o, argOf p] := argsOf_cons ho (argsOf_cons hp rfl)
        have hn : (LS S).native Prim.atan2.id [r, q] s.w = onArgs (mathArgs2 Floats.atan2) [r, q] s.w := by
          rw [← ok.atan2]
          rfl
        have bad : ((∀ t, v ≠ .float t) ∨ ∀ t, u ≠ .float t) →
            Sim S D e s Done (lift (LS S) ((LS S).native Prim.atan2.id [r, q]) s) (.err σ.out) := fun h =>
          Sim.liftErr hi (w := s.w) (hn.trans (onArgs_err ha (mathArgs2_bad (h.imp hl.float_arg hk.float_arg)))) rfl
        cases v with
        | float x =>
          cases u with
          | float y =>
            have ho' : o = .float x := hl
            have hp' : p = .float y := hk
            subst ho'
            subst hp'
            exact sim_prim ok hi (o := .float (Floats.atan2 x y)) (hn.trans (onArgs_eq (f := mathArgs2 Floats.atan2) ha rfl))
              fun s' r hr => hr
          | _ => exact bad (.inr nofun)
        | _ => exact bad (.inl nofun)
      · exact hr.2.2.elim
    · cases v <;> first | trivial | (cases u <;> trivial)
  | newBuffer =>
    rcases vs with _ | ⟨v, _ | ⟨_, _⟩⟩
    · trivial
    · rcases rs with _ | ⟨r, _ | ⟨_, _⟩⟩
      · exact hr.elim
      · obtain ⟨o, ho, hl⟩ := hr.1.looks hi
        have ha : argsOf s.w.heap [r] = .ok [argOf o] := argsOf_cons ho rfl
        have bad : (∀ t, v ≠ .int t) →
            Sim S D e s Done (lift (LS S) ((LS S).native Prim.newBuffer.id [r]) s) (.err σ.out) := fun h =>
          Sim.liftErr hi (w := s.w) (onArgs_err (f := newArgs) ha (newArgs_bad (hl.no_int_arg h))) rfl
        cases v with
        | int n =>
          have ho' : o = .int n := hl
          subst ho'
          show Sim S D e s Done _ ((if 0 ≤ n ∧ n < 2 ^ 31 then do
            let a ← newCell (.buffer (List.replicate n.toNat 0))
            pure [.ref a] else leave : B (List Val)) σ)
          by_cases hn : 0 ≤ n ∧ n < 2 ^ 31
          · rw [if_pos hn]
            exact sim_buffer ok hi (onArgs_eq (f := newArgs) ha (if_pos hn))
          · rw [if_neg hn]
            trivial
        | _ => exact bad nofun
      · exact hr.2.elim
    · cases v <;> trivial
  | bufferText =>
    rcases vs with _ | ⟨v, _ | ⟨_, _⟩⟩
    · trivial
    · rcases rs with _ | ⟨r, _ | ⟨_, _⟩⟩
      · exact hr.elim
      · obtain ⟨hr, _⟩ := hr
        obtain ⟨o, ho, hl⟩ := hr.looks hi
        have ha : argsOf s.w.heap [r] = .ok [argOf o] := argsOf_cons ho rfl
        have bad : toStringArgs [argOf o] = .err →
            Sim S D e s Done (lift (LS S) ((LS S).native Prim.bufferText.id [r]) s) (.err σ.out) := fun h =>
          Sim.liftErr hi (w := s.w) (onArgs_err (f := toStringArgs) ha h) rfl
        cases v with
        | ref a =>
          show Sim S D e s Done _ ((match σ.cells[a]? with
            | some (.buffer bs) =>
              match readText bs with
              | some t => .ok σ [.str t]
              | none =>
                if broken bs then .ok σ [.none, .str ((text "Buffer doesn't contain valid UTF-8").map (·.toNat))] else .off
            | some (.scope _) => .off
            | some _ => .err σ.out
            | none => .off : R (List Val)))
          rcases hl with ⟨rs, items, rfl, hc, hlen⟩ | ⟨rs, es, rfl, hc, hlen⟩ | ⟨rs, env, rfl, hc⟩ | ⟨bs, rfl, hc⟩
          · rw [hc]; exact bad rfl
          · rw [hc]; exact bad rfl
          · rw [hc]; trivial
          · rw [hc]
            dsimp only
            cases ht : readText bs with
            | none =>
              dsimp only
              cases hbr : broken bs with
              | false => trivial
              | true =>
                exact sim_fail ok hi (by decide +kernel) (by decide +kernel)
                  (onArgs_eq (f := toStringArgs) ha (toString_broken hbr))
            | some t =>
              obtain ⟨hp, he⟩ := readText_eq ht
              subst he
              exact sim_prim ok hi (o := .str (Str.Spec.ofText t)) (onArgs_eq (f := toStringArgs) ha (toString_text hp))
                fun s' r hr => ⟨hr, hp⟩
        | _ => exact bad (toStringArgs_bad (hl.buffer_arg nofun))
      · exact hr.2.elim
    · cases v <;> trivial
  | textBuffer =>
    rcases vs with _ | ⟨v, _ | ⟨_, _⟩⟩
    · trivial
    · rcases rs with _ | ⟨r, _ | ⟨_, _⟩⟩
      · exact hr.elim
      · obtain ⟨hr, _⟩ := hr
        obtain ⟨o, ho, hl⟩ := hr.looks hi
        have ha : argsOf s.w.heap [r] = .ok [argOf o] := argsOf_cons ho rfl
        have bad : (∀ t, v ≠ .str t) →
            Sim S D e s Done (lift (LS S) ((LS S).native Prim.textBuffer.id [r]) s) (.err σ.out) := fun h =>
          Sim.liftErr hi (w := s.w) (onArgs_err (f := fromStringArgs) ha (fromStringArgs_bad (hl.str_arg h))) rfl
        cases v with
        | str t =>
          obtain ⟨ho', ht⟩ := hl
          subst ho'
          show Sim S D e s Done _ ((if (Utf8.Spec.encodeText t).length < 2 ^ 31 then do
            let a ← newCell (.buffer (Utf8.Spec.encodeText t))
            pure [.ref a] else leave : B (List Val)) σ)
          by_cases h1 : (Utf8.Spec.encodeText t).length < 2 ^ 31
          · rw [if_pos h1]
            exact sim_buffer ok hi (onArgs_eq (f := fromStringArgs) ha (fromString_text ht h1))
          · rw [if_neg h1]
            trivial
        | _ => exact bad nofun
      · exact hr.2.elim
    · cases v <;> trivial
  | trim =>
    cases vs with
    | nil => trivial
    | cons v vs =>
      cases vs with
      | cons _ _ => cases v <;> trivial
      | nil =>
        cases rs with
        | nil => exact hr.elim
        | cons r rs =>
          cases rs with
          | cons _ _ => exact hr.2.elim
          | nil =>
            obtain ⟨hr, _⟩ := hr
            obtain ⟨o, ho, hl⟩ := hr.looks hi
            have ha : argsOf s.w.heap [r] = .ok [argOf o] := argsOf_cons ho rfl
            have bad : (∀ t, v ≠ .str t) →
                Sim S D e s Done (lift (LS S) ((LS S).native Prim.trim.id [r]) s) (.err σ.out) := fun h =>
              Sim.liftErr hi (w := s.w) (onArgs_err (f := trimArgs) ha (trimArgs_bad (hl.str_arg h))) rfl
            cases v with
            | str t =>
              obtain ⟨ho', ht⟩ := hl
              subst ho'
              show Sim S D e s Done _ ((if stripEnd t = [] then pure [.str []]
                else if t.head? = some 32 ∨ 2 ^ 31 ≤ (Utf8.Spec.encodeText t).length then leave
                else pure [.str (stripEnd t)] : B (List Val)) σ)
              by_cases h1 : stripEnd t = []
              · rw [if_pos h1]
                exact sim_prim ok hi (o := .str (Str.Spec.ofText [])) (onArgs_eq (f := trimArgs) ha (trim_blank h1)) fun s' r hr => ⟨hr, nofun⟩
              · rw [if_neg h1]
                by_cases h2 : t.head? = some 32 ∨ 2 ^ 31 ≤ (Utf8.Spec.encodeText t).length
                · rw [if_pos h2]; trivial
                · rw [if_neg h2]
                  refine sim_prim ok hi (o := .str (Str.Spec.ofText (stripEnd t))) (onArgs_eq (f := trimArgs) ha
                    (trim_text ht (by omega) h1 fun h => h2 (.inl h))) fun s' r hr => ⟨hr, fun c hc => ?_⟩
                  obtain ⟨b, hb, -⟩ := stripEnd_spec t
                  exact ht c (by rw [hb]; exact List.mem_append_left _ hc)
            | _ => exact bad nofun
  | toInt =>
    cases vs with
    | nil => trivial
    | cons v vs =>
      cases vs with
      | cons _ _ => cases v <;> trivial
      | nil =>
        cases rs with
        | nil => exact hr.elim
        | cons r rs =>
          cases rs with
          | cons _ _ => exact hr.2.elim
          | nil =>
            obtain ⟨hr, _⟩ := hr
            obtain ⟨o, ho, hl⟩ := hr.looks hi
            have ha : argsOf s.w.heap [r] = .ok [argOf o] := argsOf_cons ho rfl
            have bad : (∀ t, v ≠ .str t) →
                Sim S D e s Done (lift (LS S) ((LS S).native Prim.toInt.id [r]) s) (.err σ.out) := fun h =>
              Sim.liftErr hi (w := s.w) (onArgs_err (f := toIntArgs) ha (toIntArgs_bad (hl.str_arg h))) rfl
            cases v with
            | str t =>
              obtain ⟨ho', ht⟩ := hl
              subst ho'
              exact sim_toInt ok hi ht fun r h => onArgs_eq (f := toIntArgs) ha h
            | _ => exact bad nofun
  | slice =>
    rcases vs with _ | ⟨v, _ | ⟨o, _ | ⟨n, _ | ⟨_, _⟩⟩⟩⟩
    · trivial
    · cases v <;> trivial
    · cases v <;> trivial
    · rcases rs with _ | ⟨r, _ | ⟨ro, _ | ⟨rn, _ | ⟨_, _⟩⟩⟩⟩
      · exact hr.elim
      · exact hr.2.elim
      · exact hr.2.2.elim
      · obtain ⟨hr, hro, hrn, _⟩ := hr
        obtain ⟨x, hx, hl⟩ := hr.looks hi
        obtain ⟨oo, hoo, hlo⟩ := hro.looks hi
        obtain ⟨on, hon, hln⟩ := hrn.looks hi
        have ha : argsOf s.w.heap [r, ro, rn] = .ok [argOf x, argOf oo, argOf on] :=
          argsOf_cons hx (argsOf_cons hoo (argsOf_cons hon rfl))
        have bad : (∀ t, v ≠ .str t) →
            Sim S D e s Done (lift (LS S) ((LS S).native Prim.slice.id [r, ro, rn]) s) (.err σ.out) := fun h =>
          Sim.liftErr hi (w := s.w) (onArgs_err (f := sliceArgs) ha (sliceArgs_bad (hl.str_arg h))) rfl
        cases v with
        | str t =>
          obtain ⟨ho', ht⟩ := hl
          subst ho'
          exact sim_slice ok hi ht hlo hln (fun r h => onArgs_eq (f := sliceArgs) ha h) fun h => onArgs_err (f := sliceArgs) ha h
        | _ => exact bad nofun
      · exact hr.2.2.2.elim
    · cases v <;> trivial

end Noja.VM.Book
