import Verif.Gc.Main

/-!
# C27: finalizers

An entry of the array `pend` is the object's place and, to be able to speak about it over several
collections, a number that says which allocation it came from; the program does not look at that.
-/

set_option linter.unusedVariables false
set_option linter.unusedSimpArgs false

namespace Noja.Gc

structure Pend where
  object : Nat
  num : Nat
deriving DecidableEq, Repr

/-- `TypeObject.free` is not null: run.c:126, o_buffer.c:63, o_file.c:45, o_dir.c:45. -/
def Obj.finalizer : Obj → Bool
  | .func _ _ | .buffer _ _ _ | .file _ | .dir _ => true
  | _ => false

/-- heap.c:358-383 `callDestructors`: `n` is `pend_used - i`; `errs` says whose destructor reports
an error, `occurred` whether there was one before.  Gives the entries left, the destructors called
and whether it went well. -/
def callDestructors (fwd : Nat → Option Nat) (occurred : Bool) (errs : Nat → Bool) :
    (n i : Nat) → List Pend → List Pend → Exec (List Pend × List Pend × Bool)
  | 0, _, pend, log => .ok (pend, log, true)
  | n + 1, i, pend, log =>
    match pend[i]? with
    | none => .ub
    | some e =>
      match fwd e.object with
      | some b => callDestructors fwd occurred errs n (i + 1) (pend.set i ⟨b, e.num⟩) log
      | none =>
        if occurred || errs e.num then .ok (pend, log ++ [e], false)
        else
          match pend[pend.length - 1]? with
          | none => .ub
          | some l => callDestructors fwd occurred errs n i ((pend.set i l).take (pend.length - 1)) (log ++ [e])

/-! ## What the loop does -/

/-- The entries from `i` on are dealt with: those that were moved are updated, the others are
destroyed and removed. -/
theorem callDestructors_spec {fwd : Nat → Option Nat} {errs : Nat → Bool} :
    ∀ (n i : Nat) (pend log : List Pend), n + i = pend.length →
      ∀ pend' log', callDestructors fwd false errs n i pend log = .ok (pend', log', true) →
        ∃ live dead, (pend.drop i).Perm (live ++ dead) ∧ (∀ e ∈ live, (fwd e.object).isSome = true) ∧ (∀ e ∈ dead, fwd e.object = none) ∧
          pend'.Perm (pend.take i ++ live.map fun e => ⟨(fwd e.object).getD 0, e.num⟩) ∧ log' = log ++ dead
  | 0, i, pend, log, hn, pend', log', he => by
    cases he
    have hi : i = pend.length := by omega
    subst hi
    refine ⟨[], [], by simp, by simp, by simp, by simp, by simp⟩
  | n + 1, i, pend, log, hn, pend', log', he => by
    unfold callDestructors at he
    have hi : i < pend.length := by omega
    rw [List.getElem?_eq_getElem hi] at he
    dsimp only at he
    have hdrop : pend.drop i = pend[i] :: pend.drop (i + 1) := List.drop_eq_getElem_cons hi
    cases hf : fwd pend[i].object with
    | some b =>
      rw [hf] at he
      dsimp only at he
      obtain ⟨live, dead, h1, h2, h3, h4, h5⟩ := callDestructors_spec n (i + 1) _ log (by simp; omega) pend' log' he
      refine ⟨pend[i] :: live, dead, ?_, ?_, h3, ?_, h5⟩
      · rw [hdrop]
        rw [List.drop_set_of_lt (by omega)] at h1
        exact h1.cons _
      · intro e hm
        rcases List.mem_cons.1 hm with rfl | hm
        · rw [hf]; rfl
        · exact h2 e hm
      · refine h4.trans ?_
        have ht : (pend.set i ⟨b, pend[i].num⟩).take (i + 1) = pend.take i ++ [⟨b, pend[i].num⟩] := by
          rw [List.take_succ_eq_append_getElem (by simpa using hi), List.getElem_set_self, List.take_set_of_le (Nat.le_refl _)]
        rw [ht, List.map_cons, hf]
        simp
    | none =>
      rw [hf] at he
      dsimp only at he
      by_cases her : (false || errs pend[i].num) = true
      · rw [if_pos her] at he; cases he
      rw [if_neg her] at he
      rw [List.getElem?_eq_getElem (show pend.length - 1 < pend.length by omega)] at he
      dsimp only at he
      obtain ⟨live, dead, h1, h2, h3, h4, h5⟩ := callDestructors_spec n i _ _ (by simp; omega) pend' log' he
      refine ⟨live, pend[i] :: dead, ?_, h2, ?_, ?_, ?_⟩
      · rw [hdrop]
        have hp : (pend.drop (i + 1)).Perm (((pend.set i (pend[pend.length - 1])).take (pend.length - 1)).drop i) := by
          rw [List.drop_take]
          by_cases hlast : i = pend.length - 1
          · rw [show pend.length - 1 - i = 0 by omega, List.take_zero, List.drop_eq_nil_of_le (by omega)]
          · have hs : (pend.set i (pend[pend.length - 1])).drop i = pend[pend.length - 1] :: pend.drop (i + 1) := by
              rw [List.drop_eq_getElem_cons (by simpa using hi), List.getElem_set_self, List.drop_set_of_lt (by omega)]
            rw [hs, show pend.length - 1 - i = (pend.length - 1 - (i + 1)) + 1 by omega, List.take_succ_cons, ← List.drop_take]
            have hl : pend.drop (i + 1) = (pend.take (pend.length - 1)).drop (i + 1) ++ [pend[pend.length - 1]] := by
              have : pend = pend.take (pend.length - 1) ++ [pend[pend.length - 1]] := by
                rw [← List.take_succ_eq_append_getElem (by omega), show pend.length - 1 + 1 = pend.length by omega, List.take_length]
              exact (congrArg (List.drop (i + 1)) this).trans (List.drop_append_of_le_length (by simp; omega))
            rw [hl]
            exact (List.perm_append_comm (l₁ := (pend.take (pend.length - 1)).drop (i + 1)) (l₂ := [pend[pend.length - 1]]))
        refine ((hp.trans h1).cons _).trans ?_
        exact List.perm_middle.symm
      · intro e hm
        rcases List.mem_cons.1 hm with rfl | hm
        · exact hf
        · exact h3 e hm
      · refine h4.trans ?_
        rw [List.take_take, Nat.min_eq_left (by omega), List.take_set_of_le (Nat.le_refl _)]
      · rw [h5]; simp

/-- **C27** (every object graph): after a successful collection the finalizers that were run are
those of the unreachable objects, each once; the entries of the reachable objects are kept and refer
to where the objects are now. -/
theorem C27_collection {h : Old} {roots : List (Option Ref)} (hv : Valid h roots)
    (hroom : ∀ a, Reach h roots a → ∀ o rooms, h[a]? = some (o, rooms) → RoomOk o.exts rooms)
    {size n : Nat} (hn : h.length < n) {roots' : List (Option Ref)} {g : GS}
    (hc : collectAll h n roots (start size) = .ok (roots', g)) (hf : g.failed = false)
    {pend pend' log : List Pend} {errs : Nat → Bool}
    (hd : callDestructors g.fwd g.failed errs pend.length 0 pend [] = .ok (pend', log, true)) :
    ∃ live dead, pend.Perm (live ++ dead) ∧ (∀ e ∈ live, Reach h roots e.object) ∧ (∀ e ∈ dead, ¬ Reach h roots e.object) ∧
      log.Perm dead ∧ ∃ φ : Nat → Nat, pend'.Perm (live.map fun e => ⟨φ e.object, e.num⟩) ∧
        ∀ e ∈ live, ∃ o rooms, h[e.object]? = some (o, rooms) ∧ g.new[φ e.object]? = some (o.mapRefs (move φ)) := by
  obtain ⟨rs', g', e, _, hw, D⟩ := after hv hroom size n hn
  rw [hc] at e
  cases e
  obtain ⟨d1, d2, d3⟩ := D hf
  rw [hf] at hd
  obtain ⟨live, dead, h1, h2, h3, h4, h5⟩ := callDestructors_spec _ _ _ _ (by omega) _ _ hd
  rw [List.drop_zero] at h1
  rw [List.take_zero, List.nil_append] at h4
  refine ⟨live, dead, h1, fun e he => (d2 _).2 (h2 e he), ?_, ?_, fun a => (g.fwd a).getD 0, h4, ?_⟩
  · intro e he hr
    have := (d2 _).1 hr
    rw [h3 e he] at this
    cases this
  · rw [h5]; simp
  · intro e he
    obtain ⟨b, hb⟩ := Option.isSome_iff_exists.1 (h2 e he)
    obtain ⟨a', o, rooms, q1, q2, q3, q4⟩ := d3 _ (hw.lt _ _ hb)
    have haa := hw.inj _ a' _ hb q1
    rw [← haa] at q2
    refine ⟨o, rooms, q2, ?_⟩
    dsimp only
    rw [hb]
    show g.new[b]? = _
    rw [q3, fill_map]
    congr 1
    exact mapRefs_congr o fun r hr => mv_move (q4 r ((mem_slots o r).2 hr))

/-! ## Sequences of collections -/

/-- The heap as far as finalizers go: `num` numbers the allocations, `log` are the finalizers run so
far, `bad` says that a collection failed. -/
structure HS where
  objs : Old
  pend : List Pend
  num : Nat
  log : List Nat
  bad : Bool

/-- What happens to the heap. -/
inductive Op where
  /-- heap.c:209-278 `Heap_Malloc` -/
  | alloc (o : Obj) (rooms : List Nat)
  /-- the program changes an object -/
  | write (a : Nat) (o : Obj) (rooms : List Nat)
  /-- a collection with these roots in a heap of this size; `rooms` are those of the new objects -/
  | gc (size : Nat) (roots : List (Option Ref)) (rooms : List (List Nat)) (errs : Nat → Bool)

/-- The objects of the new space are those of the old one from now on. -/
def settle : Option Ref → Option Ref
  | some (.new b) => some (.old b)
  | r => r

/-- heap.c:331-356, runtime.c:728-757, heap.c:410-425. -/
def gc (size : Nat) (roots : List (Option Ref)) (rooms : List (List Nat)) (errs : Nat → Bool) (s : HS) : Exec HS := do
  let (_, g) ← collectAll s.objs (s.objs.length + 1) roots (start size)
  let (pend, log, fine) ← callDestructors g.fwd g.failed errs s.pend.length 0 s.pend []
  .ok { objs := (g.new.map fun o => o.mapRefs settle).zip (rooms ++ List.replicate g.new.length [])
        pend := pend
        num := s.num
        log := s.log ++ log.map Pend.num
        bad := s.bad || !fine || g.failed }

def op : Op → HS → Exec HS
  | .alloc o rooms, s =>
    .ok { s with
          objs := s.objs ++ [(o, rooms)]
          pend := if o.finalizer then s.pend ++ [⟨s.objs.length, s.num⟩] else s.pend
          num := s.num + 1 }
  | .write a o rooms, s => .ok { s with objs := s.objs.set a (o, rooms) }
  | .gc size roots rooms errs, s => if s.bad then .ok s else gc size roots rooms errs s

def ops : List Op → HS → Exec HS
  | [], s => .ok s
  | p :: ps, s => do
    let s ← op p s
    ops ps s

/-- heap.c:156-178 `Heap_Free`: errors of destructors are ignored. -/
def freeHeap (s : HS) : List Nat := s.log ++ s.pend.map Pend.num

def empty : HS := ⟨[], [], 0, [], false⟩

/-- The numbers of the allocations of objects with a finalizer. -/
def registered : List Op → Nat → List Nat
  | [], _ => []
  | .alloc o _ :: ps, k => if o.finalizer then k :: registered ps (k + 1) else registered ps (k + 1)
  | _ :: ps, k => registered ps k

/-- C27 for every sequence of operations: destroying the heap leaves every finalizer run once. -/
def C27Statement : Prop :=
  ∀ (ps : List Op) (s : HS), ops ps empty = .ok s → (freeHeap s).Perm (registered ps 0)

theorem registered_mem : ∀ (ps : List Op) (k x : Nat), x ∈ registered ps k → k ≤ x
  | [], k, x, h => by cases h
  | .alloc o r :: ps, k, x, h => by
    unfold registered at h
    split at h
    · rcases List.mem_cons.1 h with rfl | h
      · exact Nat.le_refl _
      · have := registered_mem ps (k + 1) x h; omega
    · have := registered_mem ps (k + 1) x h; omega
  | .write a o r :: ps, k, x, h => registered_mem ps k x h
  | .gc a o r e :: ps, k, x, h => registered_mem ps k x h

/-- No allocation is counted twice. -/
theorem registered_nodup : ∀ (ps : List Op) (k : Nat), (registered ps k).Nodup
  | [], k => List.nodup_nil
  | .alloc o r :: ps, k => by
    unfold registered
    split
    · refine List.nodup_cons.2 ⟨fun h => ?_, registered_nodup ps (k + 1)⟩
      have := registered_mem ps (k + 1) k h
      omega
    · exact registered_nodup ps (k + 1)
  | .write a o r :: ps, k => registered_nodup ps k
  | .gc a o r e :: ps, k => registered_nodup ps k

theorem gc_perm {size : Nat} {roots : List (Option Ref)} {rooms : List (List Nat)} {errs : Nat → Bool} {s s' : HS}
    (h : gc size roots rooms errs s = .ok s') (hb : s'.bad = false) : (freeHeap s').Perm (freeHeap s) ∧ s'.num = s.num ∧ s.bad = false := by
  unfold gc at h
  cases hc : collectAll s.objs (s.objs.length + 1) roots (start size) with
  | ok x =>
    obtain ⟨rs, g⟩ := x
    rw [hc] at h
    simp only [Exec.bind_ok] at h
    cases hd : callDestructors g.fwd g.failed errs s.pend.length 0 s.pend [] with
    | ok y =>
      obtain ⟨pend, log, fine⟩ := y
      rw [hd] at h
      simp only [Exec.bind_ok] at h
      cases h
      simp only [Bool.or_eq_false_iff, Bool.not_eq_false'] at hb
      obtain ⟨⟨hb1, hb2⟩, hb3⟩ := hb
      subst hb2
      rw [hb3] at hd
      obtain ⟨live, dead, h1, h2, h3, h4, h5⟩ := callDestructors_spec _ _ _ _ (by omega) _ _ hd
      rw [List.drop_zero] at h1
      rw [List.take_zero, List.nil_append] at h4
      refine ⟨?_, rfl, hb1⟩
      unfold freeHeap
      dsimp only
      rw [h5, List.nil_append, List.append_assoc]
      refine List.Perm.append_left _ ?_
      have e1 := h4.map Pend.num
      have e2 := h1.map Pend.num
      rw [List.map_map] at e1
      rw [List.map_append] at e2
      refine (List.Perm.append_left _ e1).trans ?_
      refine List.perm_append_comm.trans ?_
      exact e2.symm
    | err => rw [hd] at h; cases h
    | ub => rw [hd] at h; cases h
    | diverge => rw [hd] at h; cases h
  | err => rw [hc] at h; cases h
  | ub => rw [hc] at h; cases h
  | diverge => rw [hc] at h; cases h

theorem ops_perm : ∀ (ps : List Op) (s s' : HS), ops ps s = .ok s' → s'.bad = false →
    (freeHeap s').Perm (freeHeap s ++ registered ps s.num) ∧ s.bad = false
  | [], s, s', h, hb => by cases h; exact ⟨by simp [registered], hb⟩
  | .alloc o rooms :: ps, s, s', h, hb => by
    have h : ops ps _ = .ok s' := h
    obtain ⟨h1, h2⟩ := ops_perm ps _ s' h hb
    refine ⟨h1.trans ?_, h2⟩
    rw [show registered (.alloc o rooms :: ps) s.num =
      if o.finalizer then s.num :: registered ps (s.num + 1) else registered ps (s.num + 1) from rfl]
    by_cases hf : o.finalizer = true
    · rw [if_pos hf]
      simp only [freeHeap, if_pos hf, List.map_append, List.map_cons, List.map_nil, List.append_assoc]
      exact List.Perm.refl _
    · rw [if_neg hf]
      simp only [freeHeap, if_neg hf]
      exact List.Perm.refl _
  | .write a o rooms :: ps, s, s', h, hb => by
    have h : ops ps { s with objs := s.objs.set a (o, rooms) } = .ok s' := h
    have := ops_perm ps { s with objs := s.objs.set a (o, rooms) } s' h hb
    exact this
  | .gc size roots rooms errs :: ps, s, s', h, hb => by
    have h : ((if s.bad then .ok s else gc size roots rooms errs s) >>= ops ps) = .ok s' := h
    by_cases hsb : s.bad = true
    · rw [if_pos hsb] at h
      exact ops_perm ps s s' h hb
    · rw [if_neg hsb] at h
      cases hg : gc size roots rooms errs s with
      | ok s1 =>
        rw [hg] at h
        simp only [Exec.bind_ok] at h
        obtain ⟨h1, h2⟩ := ops_perm ps s1 s' h hb
        obtain ⟨g1, g2, g3⟩ := gc_perm hg h2
        refine ⟨h1.trans ?_, g3⟩
        rw [g2]
        exact g1.append_right _
      | err => rw [hg] at h; cases h
      | ub => rw [hg] at h; cases h
      | diverge => rw [hg] at h; cases h

/-- **C27** (every sequence of allocations, changes and successful collections): destroying the heap
leaves the finalizer of every object that has one run exactly once.
What is missing: histories with a collection that failed. -/
theorem C27_partial (ps : List Op) (s : HS) (h : ops ps empty = .ok s) (hb : s.bad = false) :
    (freeHeap s).Perm (registered ps 0) ∧ (registered ps 0).Nodup := by
  refine ⟨?_, registered_nodup ps 0⟩
  have := (ops_perm ps empty s h hb).1
  simpa [freeHeap, empty] using this

/-- Two open files in a heap with room for one. -/
def twoFiles : List Op := [.alloc (.file 1) [], .alloc (.file 2) [], .gc 24 [some (.old 0), some (.old 1)] [] (fun _ => false)]

/-- C27 does not hold: the collection that fails for lack of room runs the finalizer of a file that
is still in use, and does not forget it because of the error; destroying the heap runs it again. -/
theorem C27_violated : ¬ C27Statement := by
  intro hs
  obtain ⟨s, he, hf⟩ : ∃ s, ops twoFiles empty = .ok s ∧ freeHeap s = [1, 0, 1] := ⟨_, rfl, rfl⟩
  have := (hs twoFiles s he).length_eq
  rw [hf] at this
  cases this

/-- A file and a function that die, a buffer that stays. -/
example : ∃ s, ops [.alloc (.file 1) [], .alloc (.int 3) [], .alloc (.buffer 0 0 9) [], .alloc (.func 4 none) [],
      .gc 400 [some (.old 2), some (.old 1)] [] (fun _ => false), .alloc (.dir 5) [],
      .gc 400 [some (.old 0)] [] (fun _ => false)] empty = .ok s ∧ s.bad = false ∧ s.log = [0, 3, 4] ∧
    s.pend = [⟨0, 2⟩] ∧ freeHeap s = [0, 3, 4, 2] := ⟨_, rfl, rfl, rfl, rfl, rfl⟩

end Noja.Gc
