/-!
# The probe sequence of the hash table (`src/lib/objects/o_map.c`)

`i ↦ 5 * i + 1` modulo a power of two visits every residue: so a search that has exhausted its
perturbation reaches every slot of the table.
-/

namespace Noja.Map

/-- `i ↦ 5 * i + 1` iterated `t` times. -/
def it : Nat → Nat → Nat
  | 0, x => x
  | t + 1, x => 5 * it t x + 1

theorem it_closed (t x : Nat) : 4 * it t x + 1 = 5 ^ t * (4 * x + 1) := by
  induction t with
  | zero => simp [it]
  | succ t ih => rw [it, Nat.pow_succ, Nat.mul_right_comm, ← ih]; omega

theorem five_pow (m : Nat) : ∃ q, 5 ^ (2 ^ m) = 1 + 2 ^ (m + 2) * (2 * q + 1) := by
  induction m with
  | zero => exact ⟨0, rfl⟩
  | succ m ih =>
    obtain ⟨q, h⟩ := ih
    refine ⟨q + 2 ^ m * (2 * q + 1) ^ 2, ?_⟩
    rw [Nat.pow_succ 2 m, Nat.pow_mul, h]
    have e1 : 2 ^ (m + 2) = 4 * 2 ^ m := by rw [Nat.pow_add]; omega
    have e2 : 2 ^ (m + 1 + 2) = 8 * 2 ^ m := by rw [Nat.pow_add, Nat.pow_succ]; omega
    rw [e1, e2]
    generalize 2 ^ m = a
    grind

theorem one_add_pow (M x k : Nat) : ∃ y, (1 + M * x) ^ k = 1 + M * y := by
  induction k with
  | zero => exact ⟨0, by simp⟩
  | succ k ih =>
    obtain ⟨y, h⟩ := ih
    exact ⟨y + x + M * x * y, by rw [Nat.pow_succ, h]; grind⟩

theorem dvd_of_five (m : Nat) : ∀ d, 2 ^ (m + 2) ∣ 5 ^ d - 1 → 2 ^ m ∣ d := by
  induction m with
  | zero => intro d _; simp
  | succ m ih =>
    intro d h
    have h1 : 2 ^ (m + 2) ∣ 5 ^ d - 1 :=
      Nat.dvd_trans (Nat.pow_dvd_pow 2 (by omega)) h
    obtain ⟨q, hq⟩ := ih d h1
    rcases (show q = 2 * (q / 2) ∨ q = 2 * (q / 2) + 1 by omega) with hk | hk
    · exact ⟨q / 2, by rw [hq, Nat.pow_succ, Nat.mul_assoc, ← hk]⟩
    · exfalso
      generalize q / 2 = k at hk
      obtain ⟨u, hu⟩ := five_pow (m + 1)
      obtain ⟨v, hv⟩ := five_pow m
      obtain ⟨y, hy⟩ := one_add_pow (2 ^ (m + 1 + 2)) (2 * u + 1) k
      have e : 5 ^ d = (1 + 2 ^ (m + 1 + 2) * y) * (1 + 2 ^ (m + 2) * (2 * v + 1)) := by
        rw [← hy, ← hu, ← hv, ← Nat.pow_mul, ← Nat.pow_add, hq, hk, Nat.pow_succ]
        congr 1
        grind
      rw [e] at h
      have e2 : (2 : Nat) ^ (m + 1 + 2) = 2 * 2 ^ (m + 2) := by
        rw [show m + 1 + 2 = m + 2 + 1 by omega, Nat.pow_succ]; omega
      rw [e2] at h
      have hpos : 0 < (2 : Nat) ^ (m + 2) := Nat.two_pow_pos _
      generalize (2 : Nat) ^ (m + 2) = a at h hpos
      obtain ⟨z, hz⟩ := h
      have : (1 + 2 * a * y) * (1 + a * (2 * v + 1)) = 1 + 2 * a * z := by
        have : 1 ≤ (1 + 2 * a * y) * (1 + a * (2 * v + 1)) :=
          Nat.mul_pos (by omega) (by omega)
        omega
      have h3 : a * (2 * y + (2 * v + 1) + 2 * (a * y * (2 * v + 1))) = a * (2 * z) := by grind
      have := Nat.eq_of_mul_eq_mul_left hpos h3
      omega

theorem odd_cancel (m c x : Nat) (hc : c % 2 = 1) (h : 2 ^ m ∣ c * x) : 2 ^ m ∣ x := by
  have : Nat.Coprime (2 ^ m) c := by
    apply Nat.Coprime.pow_left
    rw [Nat.coprime_iff_gcd_eq_one, Nat.gcd_rec, hc]
    simp
  exact this.dvd_of_dvd_mul_left h

theorem five_pow_odd (a : Nat) : 5 ^ a % 2 = 1 := by
  induction a with
  | zero => rfl
  | succ a ih => rw [Nat.pow_succ]; omega

/-- No residue repeats within `2 ^ m` steps. -/
theorem it_inj (m x : Nat) {a b : Nat} (hab : a ≤ b) (hb : b < 2 ^ m)
    (h : it a x % 2 ^ m = it b x % 2 ^ m) : a = b := by
  have hle : it a x ≤ it b x := by
    have h1 := it_closed a x
    have h2 := it_closed b x
    have : 5 ^ a * (4 * x + 1) ≤ 5 ^ b * (4 * x + 1) :=
      Nat.mul_le_mul_right _ (Nat.pow_le_pow_right (by omega) hab)
    omega
  have hd : 2 ^ m ∣ it b x - it a x := (Nat.dvd_iff_mod_eq_zero.mpr (Nat.sub_mod_eq_zero_of_mod_eq h.symm))
  obtain ⟨q, hq⟩ := hd
  have hd2 : 2 ^ (m + 2) ∣ (5 ^ a * (4 * x + 1)) * (5 ^ (b - a) - 1) := by
    refine ⟨q, ?_⟩
    have h1 := it_closed a x
    have h2 := it_closed b x
    have e1 : 5 ^ b = 5 ^ a * 5 ^ (b - a) := by rw [← Nat.pow_add]; congr 1; omega
    have : 5 ^ a * (4 * x + 1) * (5 ^ (b - a) - 1) = 5 ^ b * (4 * x + 1) - 5 ^ a * (4 * x + 1) := by
      rw [e1, Nat.mul_sub, Nat.mul_one]
      congr 1
      rw [Nat.mul_right_comm]
    rw [this, ← h1, ← h2, Nat.pow_add]
    have : 2 ^ m * 2 ^ 2 * q = 4 * (2 ^ m * q) := by grind
    omega
  have hd3 := odd_cancel _ _ _ (by
    rw [Nat.mul_mod, five_pow_odd]; omega) hd2
  have hd4 := dvd_of_five m _ hd3
  have := Nat.eq_zero_of_dvd_of_lt hd4 (by omega)
  omega

/-- Every residue is reached within `2 ^ m` steps. -/
theorem it_surj (m x r : Nat) (hr : r < 2 ^ m) : ∃ t, t < 2 ^ m ∧ it t x % 2 ^ m = r := by
  have hnd : ((List.range (2 ^ m)).map (fun t => it t x % 2 ^ m)).Nodup := by
    rw [List.nodup_iff_pairwise_ne, List.pairwise_map]
    apply List.Pairwise.imp_of_mem _ (List.pairwise_lt_range (n := 2 ^ m))
    intro a b ha hb hlt he
    have := it_inj m x (Nat.le_of_lt hlt) (List.mem_range.mp hb) he
    omega
  rcases Classical.em (r ∈ (List.range (2 ^ m)).map (fun t => it t x % 2 ^ m)) with hin | hin
  · obtain ⟨t, ht, e⟩ := List.mem_map.mp hin
    exact ⟨t, List.mem_range.mp ht, e⟩
  · exfalso
    have hsub : ((List.range (2 ^ m)).map (fun t => it t x % 2 ^ m)) ⊆ (List.range (2 ^ m)).erase r := by
      intro y hy
      have hne : y ≠ r := fun e => hin (e ▸ hy)
      obtain ⟨t, _, rfl⟩ := List.mem_map.mp hy
      exact (List.mem_erase_of_ne hne).mpr (List.mem_range.mpr (Nat.mod_lt _ (Nat.two_pow_pos _)))
    have := hnd.length_le_of_subset hsub
    rw [List.length_erase_of_mem (List.mem_range.mpr hr)] at this
    simp at this
    have : 0 < 2 ^ m := Nat.two_pow_pos _
    omega

end Noja.Map
