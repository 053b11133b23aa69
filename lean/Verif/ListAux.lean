/-! Small list lemmas not in core. -/

namespace Noja

theorem nodup_map_inj {α β} {f : α → β} : ∀ {l : List α}, (l.map f).Nodup →
    ∀ {a b}, a ∈ l → b ∈ l → f a = f b → a = b
  | [], _, _, _, h, _, _ => by cases h
  | x :: l, h, a, b, ha, hb, e => by
    simp only [List.map_cons, List.nodup_cons] at h
    rcases List.mem_cons.mp ha with ha | ha <;> rcases List.mem_cons.mp hb with hb | hb
    · rw [ha, hb]
    · exact absurd (List.mem_map.mpr ⟨b, hb, by rw [← e, ha]⟩) h.1
    · exact absurd (List.mem_map.mpr ⟨a, ha, by rw [e, hb]⟩) h.1
    · exact nodup_map_inj h.2 ha hb e

end Noja
