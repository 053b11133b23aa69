import Verif.Obj.Buffer

/-! Properties C14 (buffers), C18 and C19: the buffer code against the window specification. -/

namespace Noja.Buffer

/-- The C state holds the regions and windows `a`. -/
structure Sim (s : State) (a : Spec) : Prop where
  inv : Inv s (a.wins.map (·.live))
  bufs : s.bufs = a.wins.map (fun w => ⟨w.region, w.start, w.len⟩)
  pays : s.pays.map (·.body) = a.regions
  size : ∀ p ∈ s.pays, p.size = p.body.length ∧ p.size < 2 ^ 31
  win : ∀ w ∈ a.wins, w.start + w.len ≤ (a.regions.getD w.region []).length
  whole : ∀ w ∈ a.wins, w.whole = true → w.start = 0 ∧ w.len = (a.regions.getD w.region []).length

/-- The operations for which the code is right: sizes below 2^31, integer keys that fit in 32
bits, slices cut from whole buffers with a non-negative length and not empty at the very end. -/
def Fine (a : Spec) : Op → Prop
  | .new n _ => 0 ≤ n ∧ n < 2 ^ 31
  | .ofBytes bytes _ => bytes.length < 2 ^ 31
  | .slice b o n => IsI64 o ∧ IsI64 n ∧ 0 ≤ n ∧
      ∀ w, a.wins[b]? = some w → w.whole = true ∧ ¬ (o = w.len ∧ n = 0)
  | .read _ key => ∀ k, key = some k → IsI32 k
  | .write _ key _ => ∀ k, key = some k → IsI32 k
  | .count _ => True
  | .destroy _ => True

/-- `Fine` at every step of a history. -/
def FineRun : Spec → List Op → Prop
  | _, [] => True
  | a, o :: os => Fine a o ∧ ∀ a' r, a.step o = some (a', r) → FineRun a' os

theorem toSize_of_nonneg {v : Int} (h0 : 0 ≤ v) (h : v < 2 ^ 64) : toSize v = v.toNat := by
  unfold toSize; rw [Int.emod_eq_of_lt h0 h]

theorem toSize_neg {v : Int} (h0 : v < 0) (h : -2 ^ 63 ≤ v) : 2 ^ 63 ≤ toSize v := by
  unfold toSize
  have : v % (2 ^ 64 : Int) = v + 2 ^ 64 := by
    rw [← Int.add_emod_right, Int.emod_eq_of_lt] <;> omega
  rw [this]; omega

/-- The C side of window `w` with handle `b`. -/
theorem Sim.get {s a} (h : Sim s a) {b : Nat} {w : Win} (hb : a.wins[b]? = some w)
    (hl : w.live = true) : ∃ p, s.pays[w.region]? = some p ∧
      s.bufs[b]? = some ⟨w.region, w.start, w.len⟩ ∧
      (a.wins.map (·.live))[b]? = some true ∧
      p.body = a.regions.getD w.region [] ∧ p.size = p.body.length ∧ p.size < 2 ^ 31 ∧
      deref s b = .ok (⟨w.region, w.start, w.len⟩, p) := by
  have hlive : (a.wins.map (·.live))[b]? = some true := by simp [hb, hl]
  obtain ⟨buf, p, h1, h2, h3, h4⟩ := h.inv.deref hlive
  have hbuf : s.bufs[b]? = some ⟨w.region, w.start, w.len⟩ := by rw [h.bufs]; simp [hb]
  rw [h1] at hbuf
  cases hbuf
  simp only at h2
  have hs := h.size p (List.mem_of_getElem? h2)
  refine ⟨p, h2, h1, hlive, ?_, hs.1, hs.2, h4⟩
  rw [← h.pays]
  simp [h2]

theorem sim_add {s a} (h : Sim s a) (bytes : List UInt8) (hn : bytes.length < 2 ^ 31) :
    Sim ⟨s.pays ++ [{ refs := 1, size := bytes.length, body := bytes, frees := 0 }],
      s.bufs ++ [{ payload := s.pays.length, offset := 0, length := bytes.length }]⟩
      (a.add bytes).1 := by
  obtain ⟨h1, h2, h3, h4, h5, h6⟩ := h
  have hlen : s.pays.length = a.regions.length := by rw [← h3]; simp
  have hreg : ∀ w ∈ a.wins, w.region < a.regions.length := by
    intro w hw
    obtain ⟨b, hb, rfl⟩ := List.getElem_of_mem hw
    rw [← hlen]
    exact h1.pay b _ (by rw [h2]; simp [hb]; rfl)
  refine ⟨?_, ?_, ?_, ?_, ?_, ?_⟩
  · simp only [Spec.add, List.map_append, List.map_cons, List.map_nil]
    exact inv_add h1 _ _
  · simp [Spec.add, h2, hlen]
  · simp [Spec.add, h3]
  · intro p hp
    simp only [List.mem_append, List.mem_singleton] at hp
    rcases hp with hp | rfl
    · exact h4 p hp
    · exact ⟨rfl, hn⟩
  · intro w hw
    simp only [Spec.add, List.mem_append, List.mem_singleton] at hw ⊢
    rcases hw with hw | rfl
    · have := h5 w hw
      have hr := hreg w hw
      simp only [List.getD_eq_getElem?_getD] at this ⊢
      rw [List.getElem?_append_left hr]; exact this
    · simp
  · intro w hw
    simp only [Spec.add, List.mem_append, List.mem_singleton] at hw ⊢
    rcases hw with hw | rfl
    · have := h6 w hw
      have hr := hreg w hw
      simp only [List.getD_eq_getElem?_getD] at this ⊢
      rw [List.getElem?_append_left hr]; exact this
    · simp

theorem overwrite_one (body : List UInt8) (i : Nat) (v : UInt8) (h : i < body.length) :
    overwrite body i [v] = .ok (body.set i v) := by
  unfold overwrite
  rw [if_pos (by simp; omega)]
  congr 1
  rw [List.set_eq_take_append_cons_drop, if_pos h]
  simp

theorem sim_write {s a} (h : Sim s a) {w : Win} {p : Payload} (i : Nat) (v : UInt8)
    (hp : s.pays[w.region]? = some p) :
    Sim { s with pays := s.pays.set w.region { p with body := p.body.set i v } }
      ⟨a.regions.modify w.region (fun r => r.set i v), a.wins⟩ := by
  obtain ⟨h1, h2, h3, h4, h5, h6⟩ := h
  have hlen : ∀ k, ((a.regions.modify w.region (fun r => r.set i v)).getD k []).length =
      (a.regions.getD k []).length := by
    intro k
    simp only [List.getD_eq_getElem?_getD, List.getElem?_modify]
    by_cases e : w.region = k
    · subst e
      cases hr : a.regions[w.region]? <;> simp
    · simp [e]
  refine ⟨inv_set_body h1 hp _, h2, ?_, ?_, ?_, ?_⟩
  · show (s.pays.set _ _).map _ = _
    rw [← h3]
    apply List.ext_getElem?
    intro k
    simp only [List.getElem?_map, List.getElem?_modify, List.getElem?_set]
    by_cases e : w.region = k
    · subst e
      rw [hp]
      simp [(List.getElem?_eq_some_iff.mp hp).1]
    · simp [e]
  · intro q hq
    rcases List.mem_or_eq_of_mem_set hq with hq | rfl
    · exact h4 q hq
    · simpa using h4 p (List.mem_of_getElem? hp)
  · intro x hx
    rw [hlen]; exact h5 x hx
  · intro x hx
    rw [hlen]; exact h6 x hx

theorem map_set_same {α β} (f : α → β) (l : List α) (i : Nat) (x y : α) (h : l[i]? = some x)
    (e : f y = f x) : (l.set i y).map f = l.map f := by
  rw [List.map_set, e]
  obtain ⟨hi, rfl⟩ := List.getElem?_eq_some_iff.mp h
  apply List.ext_getElem
  · simp
  · intro k h1 h2
    rw [List.getElem_set]
    split
    · subst i; simp
    · rfl

/-- One fine operation agrees with the specification. -/
theorem step_sim {s a} (h : Sim s a) (o : Op) (hf : Fine a o) {a' : Spec} {r : Res}
    (e : a.step o = some (a', r)) : ∃ s', step s o = .ok (s', r) ∧ Sim s' a' := by
  have hwl : s.bufs.length = a.wins.length := by rw [h.bufs]; simp
  cases o with
  | new n mem =>
    obtain ⟨hn0, hn1⟩ := hf
    cases mem with
    | false =>
      simp [Spec.step] at e; obtain ⟨rfl, rfl⟩ := e
      exact ⟨s, rfl, h⟩
    | true =>
      simp only [Spec.step, true_and, if_pos hn0, Option.some.injEq] at e
      have hz : toSize n = n.toNat := toSize_of_nonneg hn0 (by omega)
      simp only [step, newBuffer, hz]
      rw [if_neg (by simp), if_neg (by rw [Nat.mod_eq_of_lt] <;> omega)]
      have := sim_add h (List.replicate n.toNat 0) (by simp; omega)
      rw [e] at this
      have hr : r = .handle a.wins.length := by
        have := congrArg Prod.snd e; simpa [Spec.add] using this.symm
      subst hr
      refine ⟨_, by simp only [report, hwl]; rfl, ?_⟩
      simpa using this
  | ofBytes bytes mem =>
    simp only [Fine] at hf
    cases mem with
    | false =>
      simp [Spec.step] at e; obtain ⟨rfl, rfl⟩ := e
      exact ⟨s, rfl, h⟩
    | true =>
      simp only [Spec.step, if_true, Option.some.injEq] at e
      simp only [step]
      rw [fromBytes_eq s bytes (by rw [Nat.mod_eq_of_lt] <;> omega)]
      have := sim_add h bytes hf
      rw [e] at this
      have hr : r = .handle a.wins.length := by
        have := congrArg Prod.snd e; simpa [Spec.add] using this.symm
      subst hr
      exact ⟨_, by simp only [report, hwl], this⟩
  | slice b o n =>
    obtain ⟨ho, hn, hn0, hw⟩ := hf
    simp only [Spec.step] at e
    cases hb : a.wins[b]? with
    | none => rw [hb] at e; simp at e
    | some w =>
      obtain ⟨hwhole, hend⟩ := hw w hb
      rw [hb] at e
      by_cases hl : w.live = true
      · simp only [hl, if_true, Option.some.injEq, Spec.stepOn] at e
        obtain ⟨p, g1, g2, g3, g4, g5, g6, g7⟩ := h.get hb hl
        obtain ⟨w0, w1⟩ := h.whole w (List.mem_of_getElem? hb) hwhole
        simp only [step, slice, g7, Exec.bind_ok]
        have hnz : toSize n = n.toNat := toSize_of_nonneg hn0 (by unfold IsI64 at hn; omega)
        rw [hnz]
        have hsz : p.size = w.len := by rw [g5, g4, w1]
        have hn2 : n < 2 ^ 63 := hn.2
        by_cases ho0 : 0 ≤ o
        · have hoz : toSize o = o.toNat := toSize_of_nonneg ho0 (by unfold IsI64 at ho; omega)
          rw [hoz]
          have ho2 : o < 2 ^ 63 := ho.2
          by_cases hin : o + n ≤ w.len
          · rw [if_pos ⟨ho0, hn0, hin⟩] at e
            rw [if_neg (by omega), if_neg (by rw [Nat.mod_eq_of_lt] <;> omega)]
            cases e
            refine ⟨_, by simp only [report, hwl]; rfl, ?_, ?_, ?_, ?_, ?_, ?_⟩
            · simp only [List.map_append, List.map_cons, List.map_nil]
              exact inv_slice h.inv g2 g3 g1 _ _
            · simp [h.bufs, w0]
            · show (s.pays.set _ _).map _ = _
              rw [← h.pays]
              exact map_set_same _ _ _ _ _ g1 rfl
            · intro q hq
              rcases List.mem_or_eq_of_mem_set hq with hq | rfl
              · exact h.size q hq
              · exact ⟨g5, g6⟩
            · intro x hx
              simp only [List.mem_append, List.mem_singleton] at hx
              rcases hx with hx | rfl
              · exact h.win x hx
              · show w.start + o.toNat + n.toNat ≤ (a.regions.getD w.region []).length
                omega
            · intro x hx hxw
              simp only [List.mem_append, List.mem_singleton] at hx
              rcases hx with hx | rfl
              · exact h.whole x hx hxw
              · cases hxw
          · rw [if_neg (by omega)] at e
            cases e
            refine ⟨s, ?_, h⟩
            by_cases hq : p.size ≤ o.toNat
            · rw [if_pos hq]; rfl
            · rw [if_neg hq, if_pos (by rw [Nat.mod_eq_of_lt] <;> omega)]; rfl
        · rw [if_neg (by omega)] at e
          cases e
          have := toSize_neg (v := o) (by omega) ho.1
          rw [if_pos (by omega)]
          exact ⟨s, rfl, h⟩
      · simp [hl] at e
  | read b key =>
    simp only [Spec.step] at e
    cases hb : a.wins[b]? with
    | none => rw [hb] at e; simp at e
    | some w =>
      rw [hb] at e
      by_cases hl : w.live = true
      · simp only [hl, if_true, Option.some.injEq] at e
        obtain ⟨p, g1, g2, g3, g4, g5, g6, g7⟩ := h.get hb hl
        have hwin := h.win w (List.mem_of_getElem? hb)
        cases key with
        | none => simp [Spec.stepOn] at e; obtain ⟨rfl, rfl⟩ := e; exact ⟨s, rfl, h⟩
        | some i =>
          have hi := hf i rfl
          simp only [Spec.stepOn] at e
          simp only [step, select, toI32_of_isI32 hi, rd_ok_iff.mpr g2, Exec.bind_ok, g7]
          by_cases hin : 0 ≤ i ∧ i < w.len
          · rw [if_pos hin] at e
            cases e
            rw [if_neg (by omega)]
            have hlt : w.start + i.toNat < p.body.length := by rw [g4]; omega
            rw [Nat.mod_eq_of_lt (by omega), rd_of_lt hlt]
            refine ⟨s, ?_, h⟩
            rw [← g4]
            simp [List.getD_eq_getElem?_getD, hlt]
          · rw [if_neg hin] at e
            cases e
            rw [if_pos (by omega)]
            exact ⟨s, rfl, h⟩
      · simp [hl] at e
  | write b key val =>
    simp only [Spec.step] at e
    cases hb : a.wins[b]? with
    | none => rw [hb] at e; simp at e
    | some w =>
      rw [hb] at e
      by_cases hl : w.live = true
      · simp only [hl, if_true, Option.some.injEq] at e
        obtain ⟨p, g1, g2, g3, g4, g5, g6, g7⟩ := h.get hb hl
        have hwin := h.win w (List.mem_of_getElem? hb)
        cases key with
        | none => simp [Spec.stepOn] at e; obtain ⟨rfl, rfl⟩ := e; exact ⟨s, rfl, h⟩
        | some i =>
          cases val with
          | none => simp [Spec.stepOn] at e; obtain ⟨rfl, rfl⟩ := e; exact ⟨s, rfl, h⟩
          | some v =>
            have hi := hf i rfl
            simp only [Spec.stepOn] at e
            simp only [step, insert, toI32_of_isI32 hi, rd_ok_iff.mpr g2, Exec.bind_ok, g7]
            by_cases hin : 0 ≤ i ∧ i < w.len
            · rw [if_neg (by omega)]
              by_cases hv : 0 ≤ v ∧ v ≤ 255
              · rw [if_pos ⟨hin.1, hin.2, hv.1, hv.2⟩] at e
                cases e
                rw [if_neg (by omega)]
                have hlt : w.start + i.toNat < p.body.length := by rw [g4]; omega
                rw [Nat.mod_eq_of_lt (by omega), overwrite_one _ _ _ hlt]
                exact ⟨_, rfl, sim_write h _ _ g1⟩
              · rw [if_neg (by omega)] at e
                cases e
                rw [if_pos (by omega)]
                exact ⟨s, rfl, h⟩
            · rw [if_neg (by omega)] at e
              cases e
              rw [if_pos (by omega)]
              exact ⟨s, rfl, h⟩
      · simp [hl] at e
  | count b =>
    simp only [Spec.step] at e
    cases hb : a.wins[b]? with
    | none => rw [hb] at e; simp at e
    | some w =>
      rw [hb] at e
      by_cases hl : w.live = true
      · simp only [hl, if_true, Option.some.injEq, Spec.stepOn] at e
        cases e
        obtain ⟨p, g1, g2, g3, g4, g5, g6, g7⟩ := h.get hb hl
        have hwin := h.win w (List.mem_of_getElem? hb)
        rw [← g4] at hwin
        simp only [step, count, rd_ok_iff.mpr g2, Exec.bind_ok]
        rw [toI32_of_isI32 (by unfold IsI32; omega)]
        exact ⟨s, rfl, h⟩
      · simp [hl] at e
  | destroy b =>
    simp only [Spec.step] at e
    cases hb : a.wins[b]? with
    | none => rw [hb] at e; simp at e
    | some w =>
      rw [hb] at e
      by_cases hl : w.live = true
      · simp only [hl, if_true, Option.some.injEq, Spec.stepOn] at e
        cases e
        obtain ⟨p, g1, g2, g3, g4, g5, g6, g7⟩ := h.get hb hl
        have hfr : p.frees = 0 := by
          have hd := g7
          unfold deref at hd
          rw [rd_ok_iff.mpr g2, Exec.bind_ok, rd_ok_iff.mpr g1, Exec.bind_ok] at hd
          by_cases hz : p.frees = 0
          · exact hz
          · rw [if_neg hz] at hd; cases hd
        simp only [step, free, g7, Exec.bind_ok, report]
        have hset : ∀ (w' : Win), w' ∈ a.wins.set b { w with live := false } → ∃ x ∈ a.wins,
            w'.region = x.region ∧ w'.start = x.start ∧ w'.len = x.len ∧ w'.whole = x.whole := by
          intro w' hw'
          rcases List.mem_or_eq_of_mem_set hw' with hw' | rfl
          · exact ⟨w', hw', rfl, rfl, rfl, rfl⟩
          · exact ⟨w, List.mem_of_getElem? hb, rfl, rfl, rfl, rfl⟩
        generalize hpl : (if p.refs - 1 = 0 then
            ({ refs := p.refs - 1, size := p.size, body := p.body, frees := p.frees + 1 } : Payload)
            else { refs := p.refs - 1, size := p.size, body := p.body, frees := p.frees }) = pl
        have e1 : pl.refs = p.refs - 1 := by subst hpl; split <;> rfl
        have e2 : pl.frees = if p.refs - 1 = 0 then 1 else 0 := by subst hpl; split <;> simp [hfr]
        have e3 : pl.body = p.body := by subst hpl; split <;> rfl
        have e4 : pl.size = p.size := by subst hpl; split <;> rfl
        refine ⟨_, rfl, ?_, ?_, ?_, ?_, ?_, ?_⟩
        · simp only [List.map_set]
          exact inv_free h.inv g2 g3 g1 pl e1 e2
        · show s.bufs = _
          rw [h.bufs]
          exact (map_set_same _ a.wins b w { w with live := false } hb rfl).symm
        · show (s.pays.set _ _).map _ = _
          rw [← h.pays]
          exact map_set_same _ _ _ _ _ g1 e3
        · intro q hq
          rcases List.mem_or_eq_of_mem_set hq with hq | rfl
          · exact h.size q hq
          · rw [e3, e4]; exact ⟨g5, g6⟩
        · intro x hx
          obtain ⟨y, hy, r1, r2, r3, r4⟩ := hset x hx
          have := h.win y hy
          rw [r1, r2, r3]; exact this
        · intro x hx hxw
          obtain ⟨y, hy, r1, r2, r3, r4⟩ := hset x hx
          have := h.whole y hy (by rw [← r4]; exact hxw)
          rw [r1, r2, r3]; exact this
      · simp [hl] at e

theorem run_sim (ops : List Op) : ∀ {s a}, Sim s a → FineRun a ops → ∀ {a' rs},
    a.run ops = some (a', rs) → ∃ s', run s ops = .ok (s', rs) ∧ Sim s' a' := by
  induction ops with
  | nil => intro s a h _ a' rs e; cases e; exact ⟨s, rfl, h⟩
  | cons o os ih =>
    intro s a h hf a' rs e
    obtain ⟨hf1, hf2⟩ := hf
    simp only [Spec.run] at e
    cases e1 : a.step o with
    | none => rw [e1] at e; cases e
    | some x =>
      obtain ⟨a1, r⟩ := x
      rw [e1] at e
      simp only at e
      cases e2 : a1.run os with
      | none => rw [e2] at e; cases e
      | some y =>
        obtain ⟨a2, rs2⟩ := y
        rw [e2] at e
        cases e
        obtain ⟨s1, g1, g2⟩ := step_sim h o hf1 e1
        obtain ⟨s2, g3, g4⟩ := ih g2 (hf2 _ _ e1) e2
        exact ⟨s2, by simp [run, g1, g3], g4⟩

theorem sim_start : Sim start .empty :=
  ⟨⟨rfl, by simp [start], by simp [start]⟩, rfl, rfl, by simp [start], by simp [Spec.empty],
    by simp [Spec.empty]⟩

/-- The integers of an operation are 64-bit integers. -/
def Op.I64 : Op → Prop
  | .new n _ => IsI64 n
  | .slice _ o n => IsI64 o ∧ IsI64 n
  | .read _ k => ∀ i, k = some i → IsI64 i
  | .write _ k v => (∀ i, k = some i → IsI64 i) ∧ ∀ i, v = some i → IsI64 i
  | _ => True

/-- C18 and C19, the full property: every history of operations on live buffers shows what it
shows on windows of byte regions, without undefined behaviour (that is, without an access outside
the memory of the buffer's payload, or to released memory). -/
def C18Statement : Prop :=
  ∀ (ops : List Op), (∀ o ∈ ops, o.I64) → ∀ a' rs, Spec.empty.run ops = some (a', rs) →
    ∃ s', run start ops = .ok (s', rs)

/-- **C18**, **C19** for histories of `Fine` operations. Missing: buffers of 2^31 bytes or more
and of negative size, keys outside 32 bits, slices of slices, slices of negative length, and the
empty slice at the end of a buffer; the theorems below show that each of these goes wrong. -/
theorem C18_C19_windows_partial (ops : List Op) (hf : FineRun .empty ops) (a' : Spec)
    (rs : List Res) (e : Spec.empty.run ops = some (a', rs)) :
    ∃ s', run start ops = .ok (s', rs) := by
  obtain ⟨s', h, _⟩ := run_sim ops sim_start hf e
  exact ⟨s', h⟩

/-- Creating a buffer of size -1 overflows the allocation size and writes outside the block. -/
theorem C18_violated : ¬ C18Statement := by
  intro h
  have e : Spec.empty.run [.new (-1) true] = some (.empty, [.error]) := rfl
  obtain ⟨s, hs⟩ := h [.new (-1) true] (by simp [Op.I64]; decide) _ _ e
  have : run start [.new (-1) true] = .ub := rfl
  rw [this] at hs; cases hs

/-- Reading at index 2^32 is accepted as index 0 (C14 for buffers). -/
theorem C14_buffer_violated :
    ∃ s, run start [.new 4 true, .read 0 (some 4294967296)] = .ok (s, [.handle 0, .byte 0]) :=
  ⟨_, rfl⟩

/-- Slicing a slice is relative to the original buffer, not to the slice. -/
theorem C19_violated_nested :
    (∃ s, run start [.ofBytes [1, 2, 3, 4] true, .slice 0 1 3, .slice 1 1 1, .read 2 (some 0)] =
      .ok (s, [.handle 0, .handle 1, .handle 2, .byte 2])) ∧
    (∃ a, Spec.empty.run [.ofBytes [1, 2, 3, 4] true, .slice 0 1 3, .slice 1 1 1, .read 2 (some 0)] =
      some (a, [.handle 0, .handle 1, .handle 2, .byte 3])) :=
  ⟨⟨_, rfl⟩, ⟨_, rfl⟩⟩

/-- A slice of negative length is accepted, and reading it leaves the memory of the buffer. -/
theorem C19_violated_negative :
    (∃ s, run start [.new 4 true, .slice 0 3 (-1)] = .ok (s, [.handle 0, .handle 1])) ∧
    run start [.new 4 true, .slice 0 3 (-1), .read 1 (some 100)] = .ub :=
  ⟨⟨_, rfl⟩, rfl⟩

/-- The empty slice at the end of a buffer is refused. -/
theorem C19_violated_empty :
    ∃ s, run start [.new 4 true, .slice 0 4 0] = .ok (s, [.handle 0, .error]) := ⟨_, rfl⟩

/-- Once made, a window keeps its place in its region and every region keeps its length. -/
theorem spec_step_keeps {a a' : Spec} {o : Op} {r : Res} (e : a.step o = some (a', r))
    {b : Nat} {w : Win} (hb : a.wins[b]? = some w) :
    ∃ w', a'.wins[b]? = some w' ∧ w'.region = w.region ∧ w'.start = w.start ∧ w'.len = w.len := by
  have hlt := (List.getElem?_eq_some_iff.mp hb).1
  have happ : ∀ x, (a.wins ++ [x])[b]? = some w := by
    intro x; rw [List.getElem?_append_left hlt]; exact hb
  have hadd : ∀ bytes, (a.add bytes).1.wins[b]? = some w := fun bytes => happ _
  cases o with
  | new n mem =>
    simp only [Spec.step, Option.some.injEq] at e
    split at e
    · cases e; exact ⟨w, hadd _, rfl, rfl, rfl⟩
    · cases e; exact ⟨w, hb, rfl, rfl, rfl⟩
  | ofBytes bs mem =>
    simp only [Spec.step, Option.some.injEq] at e
    split at e
    · cases e; exact ⟨w, hadd _, rfl, rfl, rfl⟩
    · cases e; exact ⟨w, hb, rfl, rfl, rfl⟩
  | slice c o n =>
    simp only [Spec.step] at e
    cases hc : a.wins[c]? with
    | none => rw [hc] at e; simp at e
    | some x =>
      rw [hc] at e; simp only at e
      split at e
      · simp only [Spec.stepOn, Option.some.injEq] at e
        split at e <;> cases e
        · exact ⟨w, happ _, rfl, rfl, rfl⟩
        · exact ⟨w, hb, rfl, rfl, rfl⟩
      · cases e
  | read c k =>
    simp only [Spec.step] at e
    cases hc : a.wins[c]? with
    | none => rw [hc] at e; simp at e
    | some x =>
      rw [hc] at e; simp only at e
      split at e
      · cases k <;> simp only [Spec.stepOn, Option.some.injEq] at e <;> (try split at e) <;> cases e <;>
          exact ⟨w, hb, rfl, rfl, rfl⟩
      · cases e
  | write c k v =>
    simp only [Spec.step] at e
    cases hc : a.wins[c]? with
    | none => rw [hc] at e; simp at e
    | some x =>
      rw [hc] at e; simp only at e
      split at e
      · cases k <;> cases v <;> simp only [Spec.stepOn, Option.some.injEq] at e <;> (try split at e) <;>
          cases e <;> exact ⟨w, hb, rfl, rfl, rfl⟩
      · cases e
  | count c =>
    simp only [Spec.step] at e
    cases hc : a.wins[c]? with
    | none => rw [hc] at e; simp at e
    | some x =>
      rw [hc] at e; simp only at e
      split at e
      · simp only [Spec.stepOn, Option.some.injEq] at e
        cases e; exact ⟨w, hb, rfl, rfl, rfl⟩
      · cases e
  | destroy c =>
    simp only [Spec.step] at e
    cases hc : a.wins[c]? with
    | none => rw [hc] at e; simp at e
    | some x =>
      rw [hc] at e; simp only at e
      split at e
      · simp only [Spec.stepOn, Option.some.injEq] at e
        cases e
        by_cases hbc : c = b
        · subst hbc
          rw [hb] at hc; cases hc
          exact ⟨{ w with live := false }, by simp [hlt], rfl, rfl, rfl⟩
        · exact ⟨w, by simp [hbc, hb], rfl, rfl, rfl⟩
      · cases e

theorem spec_run_keeps (ops : List Op) : ∀ {a a' : Spec} {rs : List Res}, a.run ops = some (a', rs) →
    ∀ {b : Nat} {w : Win}, a.wins[b]? = some w →
    ∃ w', a'.wins[b]? = some w' ∧ w'.region = w.region ∧ w'.start = w.start ∧ w'.len = w.len := by
  induction ops with
  | nil => intro a a' rs e b w hb; cases e; exact ⟨w, hb, rfl, rfl, rfl⟩
  | cons o os ih =>
    intro a a' rs e b w hb
    simp only [Spec.run] at e
    cases e1 : a.step o with
    | none => rw [e1] at e; cases e
    | some x =>
      obtain ⟨a1, r⟩ := x
      rw [e1] at e
      simp only at e
      cases e2 : a1.run os with
      | none => rw [e2] at e; cases e
      | some y =>
        obtain ⟨a2, rs2⟩ := y
        rw [e2] at e
        cases e
        obtain ⟨w1, k1, k2, k3, k4⟩ := spec_step_keeps e1 hb
        obtain ⟨w2, l1, l2, l3, l4⟩ := ih e2 k1
        exact ⟨w2, l1, by rw [l2, k2], by rw [l3, k3], by rw [l4, k4]⟩

/-- **C19**, stated on the code: cut a slice from whole buffer `b` at offset `o`; then, whatever
happens afterwards, as long as both are alive, index `i` of the slice reads the same byte as index
`o + i` of the buffer. -/
theorem C19_slice_is_window_partial {s s1 s2 : State} {a a2 : Spec} (h : Sim s a)
    {b c : Nat} {o n : Int} (hf : Fine a (.slice b o n))
    (e1 : step s (.slice b o n) = .ok (s1, .handle c))
    (ops : List Op) {a1 : Spec} (ea : a.step (.slice b o n) = some (a1, .handle c))
    (hops : FineRun a1 ops) {rs rs' : List Res} (er : a1.run ops = some (a2, rs'))
    (e2 : run s1 ops = .ok (s2, rs))
    {w w' : Win} (hb : a2.wins[b]? = some w) (hbl : w.live = true)
    (hc : a2.wins[c]? = some w') (hcl : w'.live = true)
    (i : Int) (hi0 : 0 ≤ i) (hin : i < n) (hoi : IsI32 (o + i)) :
    ∃ v, step s2 (.read c (some i)) = .ok (s2, .byte v) ∧
      step s2 (.read b (some (o + i))) = .ok (s2, .byte v) := by
  obtain ⟨s1', g1, g2⟩ := step_sim h _ hf ea
  rw [e1] at g1; cases g1
  obtain ⟨s2', g3, g4⟩ := run_sim ops g2 hops er
  rw [e2] at g3; cases g3
  -- the windows in the specification
  simp only [Spec.step] at ea
  cases hb0 : a.wins[b]? with
  | none => rw [hb0] at ea; simp at ea
  | some w0 =>
    rw [hb0] at ea; simp only at ea
    split at ea
    · simp only [Spec.stepOn, Option.some.injEq] at ea
      split at ea
      · rename_i hin0
        cases ea
        obtain ⟨x, x1, x2, x3, x4⟩ := spec_run_keeps ops er (b := b) (w := w0) (by
          rw [List.getElem?_append_left (List.getElem?_eq_some_iff.mp hb0).1]; exact hb0)
        rw [hb] at x1; cases x1
        obtain ⟨y, y1, y2, y3, y4⟩ := spec_run_keeps ops er (b := a.wins.length) (by simp; rfl)
        rw [hc] at y1; cases y1
        simp only at y2 y3 y4
        obtain ⟨o0, n0, on⟩ := hin0
        have eb : a2.step (.read b (some (o + i))) =
            some (a2, .byte ((a2.regions.getD w.region []).getD (w.start + (o + i).toNat) 0)) := by
          simp only [Spec.step, hb, hbl, if_true, Spec.stepOn]
          rw [if_pos (by omega)]
        have ec : a2.step (.read a.wins.length (some i)) =
            some (a2, .byte ((a2.regions.getD w'.region []).getD (w'.start + i.toNat) 0)) := by
          simp only [Spec.step, hc, hcl, if_true, Spec.stepOn]
          rw [if_pos (by omega)]
        obtain ⟨t1, f1, _⟩ := step_sim g4 _ (show Fine a2 (.read b (some (o + i))) from
          fun k hk => by cases hk; exact hoi) eb
        have hi32 : IsI32 i := by unfold IsI32 at *; omega
        obtain ⟨t2, f2, _⟩ := step_sim g4 _ (show Fine a2 (.read a.wins.length (some i)) from
          fun k hk => by cases hk; exact hi32) ec
        have hst : ∀ {t v x k}, step s2 (.read x k) = .ok (t, .byte v) → t = s2 := by
          intro t v x k hh
          simp only [step] at hh
          cases hs : select s2 x k <;> rw [hs] at hh <;> simp at hh
          exact hh.1.symm
        have := hst f1; subst this
        have := hst f2; subst this
        have hpos : w'.start + i.toNat = w.start + (o + i).toNat := by
          rw [x3, y3]; omega
        rw [y2, hpos] at f2
        rw [x2] at f1
        exact ⟨_, f2, f1⟩
      · cases ea
    · cases ea

/-- A fine history with two buffers, a slice written through, and a destruction. -/
example : ∃ a, FineRun .empty [.new 4 true, .slice 0 1 2, .write 1 (some 1) (some 200), .read 0 (some 2),
      .destroy 0, .read 1 (some 1), .read 1 (some 2), .write 1 (some 0) (some 256), .count 1] ∧
    Spec.empty.run [.new 4 true, .slice 0 1 2, .write 1 (some 1) (some 200), .read 0 (some 2),
      .destroy 0, .read 1 (some 1), .read 1 (some 2), .write 1 (some 0) (some 256), .count 1] =
      some (a, [.handle 0, .handle 1, .done, .byte 200, .done, .byte 200, .error, .error,
        .number 2]) := by
  refine ⟨_, ?_, rfl⟩
  refine ⟨by simp [Fine], fun a r e => ?_⟩; cases e
  refine ⟨⟨by decide, by decide, by decide, fun w hw => by cases hw; simp⟩, fun a r e => ?_⟩; cases e
  refine ⟨fun k hk => by cases hk; decide, fun a r e => ?_⟩; cases e
  refine ⟨fun k hk => by cases hk; decide, fun a r e => ?_⟩; cases e
  refine ⟨trivial, fun a r e => ?_⟩; cases e
  refine ⟨fun k hk => by cases hk; decide, fun a r e => ?_⟩; cases e
  refine ⟨fun k hk => by cases hk; decide, fun a r e => ?_⟩; cases e
  refine ⟨fun k hk => by cases hk; decide, fun a r e => ?_⟩; cases e
  exact ⟨trivial, fun a r e => trivial⟩

end Noja.Buffer
