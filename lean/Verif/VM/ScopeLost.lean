import Verif.VM.Scope
import Verif.Obj.MapProps

/-!
# Variables that disappear (C33)

`C33_read_partial` and `C33_write_partial` suppose that probing reaches equal names.  A scope is a map
object made by `Object_NewMap(-1)` (runtime.c:659) whose keys are strings; here is what its table does with names.
-/

namespace Noja.VM

/-- Names as keys of the map model: o_string.c:183-191 `hash` and o_string.c:205-218 `op_eql`
(`compare_names`). -/
def nameOps : Map.KeyOps Name where
  hash n :=
    match cstring n with
    | .ok s =>
      match Str.hash s with
      | .ok x => x
      | _ => 0
    | _ => 0
  cmp a b := .ok (decide (a = b))

/-- C33 for one scope: after any assignments, every variable has the value assigned last. -/
def C33Statement : Prop :=
  ∀ (as : List (Name × Nat)) (n : Name) (v : Nat), (as.reverse.lookup n = some v) →
    ∃ fuel0, ∀ fuel, fuel0 ≤ fuel → ∃ m : Map.MObj Name Nat, Map.newMap fuel (-1) = .ok m ∧
      ∃ rs, Map.run nameOps fuel m (as.map (fun a => Map.Op.insert a.1 a.2) ++ [.select n]) = .ok (rs ++ [.found v])

/-- `o = 1; l = 2; q = 3; value = 4; a = 5; j = 6; a` -/
theorem C33_lost (f : Nat) : ∃ m : Map.MObj Name Nat, Map.newMap (f + 50) (-1) = .ok m ∧
    Map.run nameOps (f + 50) m [.insert [111] 1, .insert [108] 2, .insert [113] 3,
      .insert [118, 97, 108, 117, 101] 4, .insert [97] 5, .insert [106] 6, .select [97]] =
    .ok [.done, .done, .done, .done, .done, .done, .absent] :=
  ⟨_, rfl, rfl⟩

/-- Violated: the sixth variable of a function makes the fifth one disappear. -/
theorem C33_violated : ¬ C33Statement := by
  intro h
  obtain ⟨f, hf⟩ := h [([111], 1), ([108], 2), ([113], 3), ([118, 97, 108, 117, 101], 4), ([97], 5), ([106], 6)]
    [97] 5 (by decide)
  obtain ⟨m, h1, rs, h2⟩ := hf (f + 50) (by omega)
  obtain ⟨m', h3, h4⟩ := C33_lost f
  rw [h1] at h3
  cases h3
  rw [show ([([111], 1), ([108], 2), ([113], 3), ([118, 97, 108, 117, 101], 4), ([97], 5), ([106], 6)] : List (Name × Nat)).map
    (fun a => Map.Op.insert a.1 a.2) ++ [Map.Op.select [97]] = _ from rfl] at h2
  erw [h4] at h2
  simp only [Exec.ok.injEq] at h2
  have := congrArg List.getLast? h2
  simp at this

theorem lookup_insert (s : List (Name × Nat)) (k n : Name) (v : Nat) :
    Map.Spec.lookup id (Map.Spec.insert id s k v) n = if n = k then some v else Map.Spec.lookup id s n := by
  induction s with
  | nil => simp [Map.Spec.insert, Map.Spec.lookup]
  | cons e s ih =>
    obtain ⟨k', v'⟩ := e
    simp only [Map.Spec.insert, id]
    by_cases h : k = k'
    · subst h
      rw [if_pos rfl]
      simp only [Map.Spec.lookup, id]
      by_cases q : n = k <;> simp [q]
    · rw [if_neg h]
      simp only [Map.Spec.lookup, id]
      by_cases q : n = k'
      · have : ¬ n = k := fun e => h (by rw [← e, q])
        simp only [if_pos q, if_neg this]
      · simp only [if_neg q, ih]

theorem spec_assigns (n : Name) : ∀ (as : List (Name × Nat)) (s : List (Name × Nat)),
    ∃ rs, Map.Spec.run id s (as.map (fun a => Map.Op.insert a.1 a.2) ++ [.select n]) =
      rs ++ [match (as.reverse.lookup n).or (Map.Spec.lookup id s n) with
        | some v => .found v
        | none => .absent]
  | [], s => by
    refine ⟨[], ?_⟩
    simp only [List.map_nil, List.nil_append, Map.Spec.run, Map.Spec.step, List.reverse_nil, List.lookup_nil, Option.none_or]
    cases Map.Spec.lookup id s n <;> rfl
  | a :: as, s => by
    obtain ⟨rs, h⟩ := spec_assigns n as (Map.Spec.insert id s a.1 a.2)
    refine ⟨.done :: rs, ?_⟩
    simp only [List.map_cons, List.cons_append, Map.Spec.run, Map.Spec.step]
    rw [h, lookup_insert]
    congr 3
    rw [List.reverse_cons, List.lookup_append]
    have e1 : [a].lookup n = if n = a.1 then some a.2 else none := by
      rw [List.lookup_cons, List.lookup_nil]
      by_cases q : n = a.1
      · simp [q]
      · simp [q, (beq_eq_false_iff_ne.2 q : (n == a.1) = false)]
    rw [e1]
    cases as.reverse.lookup n with
    | some v => simp
    | none =>
      by_cases q : n = a.1
      · simp [q]
      · simp [q]

/-- With at most five assignments, or names whose hashes are not negative, every variable has the
value assigned last, and a variable that was not assigned is missing.  Missing: all other names. -/
theorem C33_scope_partial (as : List (Name × Nat)) (n : Name)
    (h : as.length ≤ 5 ∨ ∀ a ∈ as, 0 ≤ (nameOps.hash a.1).toInt) :
    ∃ fuel0, ∀ fuel, fuel0 ≤ fuel → ∃ m : Map.MObj Name Nat, Map.newMap fuel (-1) = .ok m ∧
      ∃ rs, Map.run nameOps fuel m (as.map (fun a => Map.Op.insert a.1 a.2) ++ [.select n]) =
        .ok (rs ++ [match as.reverse.lookup n with
          | some v => .found v
          | none => .absent]) := by
  have hcon : Map.Consistent nameOps (id : Name → Name) := ⟨fun _ _ => rfl, fun a b h => by rw [show a = b from h]⟩
  have hins : Map.inserted (as.map (fun a => Map.Op.insert a.1 a.2) ++ [.select n]) = as.map Prod.fst := by
    clear h
    induction as with
    | nil => rfl
    | cons a as ih => simp only [List.map_cons, List.cons_append, Map.inserted, ih]
  obtain ⟨f, hf⟩ := Map.C15_finite_map_partial hcon (-1)
    (as.map (fun a => Map.Op.insert a.1 a.2) ++ [.select n]) (by
      rw [hins]
      rcases h with h | h
      · left
        simp only [List.length_map]
        omega
      · right
        intro k hk
        obtain ⟨a, ha, rfl⟩ := List.mem_map.1 hk
        have := h a ha
        have hb := BitVec.toInt_eq_toNat_cond (x := nameOps.hash a.1)
        by_cases q : 2 * (nameOps.hash a.1).toNat < 2 ^ 32
        · omega
        · rw [if_neg q] at hb
          have := (nameOps.hash a.1).isLt
          omega)
  obtain ⟨rs, hrs⟩ := spec_assigns n as []
  refine ⟨f, fun fuel hfu => ?_⟩
  obtain ⟨m, h1, h2⟩ := hf fuel hfu
  refine ⟨m, h1, rs, ?_⟩
  rw [h2, hrs]
  simp [Map.Spec.lookup]

/-- Eight names with such hashes. -/
example : ∀ a ∈ ([([101], 1), ([102], 2), ([103], 3), ([104], 4), ([105], 5), ([106], 6), ([107], 7), ([101], 8)] : List (Name × Nat)),
    0 ≤ (nameOps.hash a.1).toInt := by decide +kernel

/-- The names are indeed names, with different hashes. -/
example : nameOps.hash [97] ≠ nameOps.hash [108] ∧ (nameOps.hash [97]).toInt < 0 := by decide +kernel

end Noja.VM
