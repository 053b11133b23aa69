import Verif.Str.Spec
import Verif.Utf8.Lemmas2

namespace Noja.Str
open Utf8

set_option linter.unusedSimpArgs false

/-- The string made of the given UTF-8 units. -/
def mk (ps : List (List UInt8)) : Str :=
  { count := ps.length, bytes := ps.flatten.length, body := ps.flatten ++ [0] }

theorem fromString_units {ps : List (List UInt8)} (h : Units ps) (post : List UInt8) :
    fromString (ps.flatten ++ post) ps.flatten.length = .ok (mk ps) := by
  unfold fromString
  rw [strlen_units h post]
  simp only [Exec.bind_ok]
  rw [if_neg (by simp [-List.length_flatten])]
  simp [mk, -List.length_flatten]

theorem fromString_spec (src : List UInt8) (len : Nat) (h : len ≤ src.length) :
    fromString src len = .err ∨
      ∃ ps, Units ps ∧ ps.flatten = src.take len ∧ fromString src len = .ok (mk ps) := by
  unfold fromString
  rcases strlen_spec src len h with e | ⟨ps, hu, hf, e⟩
  · rw [e]; exact .inl rfl
  · rw [e]
    right
    refine ⟨ps, hu, hf, ?_⟩
    simp only [Exec.bind_ok]
    rw [if_neg (by omega)]
    have : ps.flatten.length = len := by rw [hf]; simp; omega
    simp [mk, hf, h]

theorem scan_units (s : Str) (post : List UInt8) :
    ∀ (as : List (List UInt8)) (pre : List UInt8) (qs : List (List UInt8)),
      Units as → s.body = pre ++ as.flatten ++ qs.flatten ++ post →
      s.bytes = pre.length + as.flatten.length + qs.flatten.length →
      scan s as.length pre.length = .ok (pre.length + as.flatten.length) := by
  intro as
  induction as with
  | nil => intro pre qs _ _ _; simp [scan]
  | cons u as ih =>
    intro pre qs hu hb hn
    obtain ⟨⟨c, hc⟩, has⟩ := hu.cons
    simp only [List.length_cons, scan]
    have e : s.body = pre ++ u ++ (as.flatten ++ qs.flatten ++ post) := by
      rw [hb]; simp
    have hd := hc.2 pre (as.flatten ++ qs.flatten ++ post) (s.bytes - pre.length)
      (by rw [hn]; simp only [List.flatten_cons, List.length_append]; omega)
    rw [e, hd]
    simp only []
    have := ih (pre ++ u) qs has (by rw [e]; simp) (by
      rw [hn]; simp only [List.flatten_cons, List.length_append]; omega)
    rw [List.length_append] at this
    rw [this]
    simp only [List.flatten_cons, List.length_append]
    congr 1; omega

theorem units_all_singletons {ps : List (List UInt8)} (h : Units ps)
    (he : ps.length = ps.flatten.length) : ∀ u ∈ ps, u.length = 1 := by
  induction ps with
  | nil => simp
  | cons u ps ih =>
    obtain ⟨⟨c, hc⟩, hps⟩ := h.cons
    have h1 := hps.length_le
    have h2 : u.length ≠ 0 := by
      intro h; exact hc.1 (List.eq_nil_of_length_eq_zero h)
    simp only [List.flatten_cons, List.length_append, List.length_cons] at he
    intro v hv
    rcases List.mem_cons.mp hv with rfl | hv
    · omega
    · exact ih hps (by omega) v hv

theorem flatten_length_of_singletons {ps : List (List UInt8)} (h : ∀ u ∈ ps, u.length = 1) :
    ps.flatten.length = ps.length := by
  induction ps with
  | nil => rfl
  | cons u ps ih =>
    simp only [List.flatten_cons, List.length_append, List.length_cons]
    rw [ih (fun v hv => h v (by simp [hv])), h u (by simp)]; omega

theorem charIndexToOffset_units (as : List (List UInt8)) (u : List UInt8)
    (qs : List (List UInt8)) (h : Units (as ++ u :: qs)) :
    charIndexToOffset (mk (as ++ u :: qs)) as.length = .ok as.flatten.length := by
  unfold charIndexToOffset
  have has : Units as := fun v hv => h v (by simp [hv])
  by_cases he : (mk (as ++ u :: qs)).count = (mk (as ++ u :: qs)).bytes
  · rw [if_pos he]
    have := units_all_singletons h he
    rw [flatten_length_of_singletons (fun v hv => this v (by simp [hv]))]
  · rw [if_neg he]
    have := scan_units (mk (as ++ u :: qs)) [0] as [] (u :: qs) has (by simp [mk]) (by
      simp [mk, -List.length_flatten])
    simpa [-List.length_flatten] using this

theorem select_units (as : List (List UInt8)) (u : List UInt8)
    (qs : List (List UInt8)) (h : Units (as ++ u :: qs)) (key : Int)
    (hk : toI32 key = as.length) :
    select (mk (as ++ u :: qs)) (some key) = .ok (mk [u]) := by
  unfold select
  have hcount : (mk (as ++ u :: qs)).count = as.length + 1 + qs.length := by
    simp [mk]; omega
  simp only [hk, hcount]
  rw [if_neg (by omega)]
  have e : ((as.length : Int)).toNat = as.length := by omega
  rw [e, charIndexToOffset_units as u qs h]
  simp only [Exec.bind_ok]
  obtain ⟨c, hc⟩ := h u (by simp)
  have hb : (mk (as ++ u :: qs)).body = as.flatten ++ u ++ (qs.flatten ++ [0]) := by
    simp [mk]
  have hn : (mk (as ++ u :: qs)).bytes = as.flatten.length + u.length + qs.flatten.length := by
    simp [mk, -List.length_flatten]; omega
  have hd := hc.2 as.flatten (qs.flatten ++ [0])
    ((mk (as ++ u :: qs)).bytes - as.flatten.length) (by omega)
  rw [hb, hd]
  simp only []
  have h1 : Units [u] := by
    intro v hv; simp at hv; subst hv; exact ⟨c, hc⟩
  have := fromString_units h1 (qs.flatten ++ [0])
  rw [List.append_assoc as.flatten, List.drop_left]
  simpa [-List.length_flatten] using this

theorem split_at {α} (l : List α) (i : Nat) (h : i < l.length) :
    ∃ as qs, l = as ++ l[i] :: qs ∧ as.length = i := by
  refine ⟨l.take i, l.drop (i + 1), ?_, by simp; omega⟩
  rw [← List.drop_eq_getElem_cons h, List.take_append_drop]

theorem ofText_eq (t : List Nat) : Spec.ofText t = mk (t.map Utf8.Spec.encode) := by
  simp only [Spec.ofText, mk, encodeText_eq, List.length_map]

end Noja.Str
