import Verif.Graph.Model
import Verif.Str.Props

/-! # C12 and C22: equality and hashing of values -/

namespace Noja.Graph

set_option linter.unusedSimpArgs false

/-- What every object of a heap satisfies in every execution: strings were made by
`Object_FromString`. -/
def StringsOK (h : Heap) : Prop :=
  ∀ (r : Nat) s, h[r]? = some (Obj.str s) → ∃ src, Str.fromString src src.length = .ok s

/-- Types for which == is defined. -/
def HasEq (o : Obj) : Prop :=
  o.kind = .type ∨ o.kind = .none ∨ o.kind = .bool ∨ o.kind = .int ∨ o.kind = .float ∨
    o.kind = .string

/-- Only objects of the ordinary kinds are opaque. -/
def OpaqueOK (h : Heap) : Prop :=
  ∀ (r : Nat) k, h[r]? = some (Obj.opaque k) →
    k = .file ∨ k = .dir ∨ k = .closure ∨ k = .func ∨ k = .nfunc ∨ k = .smap

theorem compare_eq {h : Heap} {a b : Nat} {x y : Obj} (ha : h[a]? = some x) (hb : h[b]? = some y) :
    compare h a b = if x.kind ≠ y.kind then .ok false else opEql x y := by
  unfold compare
  rw [rd_ok_iff.mpr ha, rd_ok_iff.mpr hb]; rfl

theorem floatEq_symm (x y : BitVec 64) : floatEq x y = floatEq y x := by
  unfold floatEq
  rw [Bool.eq_iff_iff]; simp; grind

theorem floatEq_trans (x y z : BitVec 64) (h1 : floatEq x y = true) (h2 : floatEq y z = true) :
    floatEq x z = true := by
  unfold floatEq at *
  simp at *; grind

theorem str_eql {s1 s2 : Str.Str} {src1 src2 : List UInt8}
    (h1 : Str.fromString src1 src1.length = .ok s1) (h2 : Str.fromString src2 src2.length = .ok s2) :
    ∃ r, Str.opEql s1 s2 = .ok r ∧ (r = true ↔ s1.bytes = s2.bytes ∧
        (Str.Spec.contents s1).takeWhile (· ≠ 0) = (Str.Spec.contents s2).takeWhile (· ≠ 0)) :=
  Str.opEql_spec s1 s2 (Str.wf_fromString h1).1 (Str.wf_fromString h2).1

theorem opEql_symm {h : Heap} (hs : StringsOK h) {a b : Nat} {x y : Obj} (ha : h[a]? = some x)
    (hb : h[b]? = some y) : opEql x y = opEql y x := by
  cases x <;> cases y <;> simp only [opEql] <;> try (simp [eq_comm])
  · exact floatEq_symm _ _
  · obtain ⟨s1, e1⟩ := hs _ _ ha
    obtain ⟨s2, e2⟩ := hs _ _ hb
    obtain ⟨r, hr, hc⟩ := str_eql e1 e2
    obtain ⟨r', hr', hc'⟩ := str_eql e2 e1
    rw [hr, hr']
    congr 1
    rw [Bool.eq_iff_iff, hc, hc']
    exact ⟨fun ⟨p, q⟩ => ⟨p.symm, q.symm⟩, fun ⟨p, q⟩ => ⟨p.symm, q.symm⟩⟩

/-- C22, reflexivity: a value of a type with equality, other than NaN, equals itself. -/
theorem C22_reflexive {h : Heap} (hs : StringsOK h) (ho : OpaqueOK h) {a : Nat} {x : Obj}
    (ha : h[a]? = some x) (he : HasEq x) (hn : ∀ bits, x = .float bits → isNaN bits = false) :
    compare h a a = .ok true := by
  rw [compare_eq ha ha, if_neg (by simp)]
  cases x <;> simp [HasEq, Obj.kind, opEql, floatEq] at he ⊢
  · exact hn _ rfl
  · obtain ⟨s1, e1⟩ := hs _ _ ha
    exact Str.C21_same_bytes_equal _ _ _ e1 e1
  · rcases ho _ _ ha with e | e | e | e | e | e <;> simp [e] at he

/-- NaN is the exception: it differs from itself. -/
theorem C22_nan {h : Heap} {a : Nat} {bits : BitVec 64} (ha : h[a]? = some (Obj.float bits))
    (hn : isNaN bits = true) : compare h a a = .ok false := by
  rw [compare_eq ha ha, if_neg (by simp)]
  simp [opEql, floatEq, hn]

/-- C22, symmetry. -/
theorem C22_symmetric {h : Heap} (hs : StringsOK h) (a b : Nat) (ha : a < h.length)
    (hb : b < h.length) : compare h a b = compare h b a := by
  have e1 := List.getElem?_eq_getElem ha
  have e2 := List.getElem?_eq_getElem hb
  rw [compare_eq e1 e2, compare_eq e2 e1, opEql_symm hs e1 e2]
  by_cases e : h[a].kind = h[b].kind
  · simp [e]
  · simp [e, Ne.symm e]

theorem compare_true {h : Heap} {a b : Nat} (e : compare h a b = .ok true) :
    ∃ x y, h[a]? = some x ∧ h[b]? = some y ∧ x.kind = y.kind ∧ opEql x y = .ok true := by
  unfold compare at e
  obtain ⟨x, hx, e⟩ := Exec.bind_eq_ok.mp e
  obtain ⟨y, hy, e⟩ := Exec.bind_eq_ok.mp e
  refine ⟨x, y, rd_ok_iff.mp hx, rd_ok_iff.mp hy, ?_⟩
  split at e
  · cases e
  · next k => exact ⟨by simpa using k, e⟩

/-- C22, transitivity. -/
theorem C22_transitive {h : Heap} (hs : StringsOK h) {a b c : Nat}
    (h1 : compare h a b = .ok true) (h2 : compare h b c = .ok true) :
    compare h a c = .ok true := by
  obtain ⟨x, y, hx, hy, k1, e1⟩ := compare_true h1
  obtain ⟨y', z, hy', hz, k2, e2⟩ := compare_true h2
  rw [hy] at hy'; cases hy'
  rw [compare_eq hx hz, if_neg (by simp [k1, k2])]
  cases x <;> cases y <;> simp [opEql] at e1 <;> cases z <;> simp [opEql] at e2 ⊢ <;>
    try (rw [e1, e2]; done)
  · exact floatEq_trans _ _ _ e1 e2
  · obtain ⟨s1, f1⟩ := hs _ _ hx
    obtain ⟨s2, f2⟩ := hs _ _ hy
    obtain ⟨s3, f3⟩ := hs _ _ hz
    obtain ⟨r, hr, hc⟩ := str_eql f1 f2
    obtain ⟨r', hr', hc'⟩ := str_eql f2 f3
    obtain ⟨r'', hr'', hc''⟩ := str_eql f1 f3
    rw [hr] at e1; rw [hr'] at e2
    cases e1; cases e2
    rw [hr'']
    congr 1
    rw [hc'']
    have p := hc.mp rfl
    have q := hc'.mp rfl
    exact ⟨p.1.trans q.1, p.2.trans q.2⟩

/-- C22: values of different types are never equal (and comparing them is no error). -/
theorem C22_different_types {h : Heap} {a b : Nat} {x y : Obj} (ha : h[a]? = some x)
    (hb : h[b]? = some y) (hk : x.kind ≠ y.kind) : compare h a b = .ok false := by
  rw [compare_eq ha hb, if_pos hk]

/-- C22: `none` equals `none` and nothing else. -/
theorem C22_none {h : Heap} (ho : OpaqueOK h) {a b : Nat} {y : Obj}
    (ha : h[a]? = some Obj.none) (hb : h[b]? = some y) :
    compare h a b = .ok (decide (y = Obj.none)) := by
  rw [compare_eq ha hb]
  cases y <;> simp [Obj.kind, opEql]
  rcases ho _ _ hb with e | e | e | e | e | e <;> simp [e]

/-- C22: equality of integers, booleans and types is equality of contents; on other types == is
an error. -/
theorem C22_values {h : Heap} {a b : Nat} {x y : Obj} (ha : h[a]? = some x) (hb : h[b]? = some y) :
    (∀ v w, x = .int v → y = .int w → compare h a b = .ok (decide (v = w))) ∧
    (∀ v w, x = .bool v → y = .bool w → compare h a b = .ok (decide (v = w))) ∧
    (∀ v w, x = .type v → y = .type w → compare h a b = .ok (decide (v = w))) ∧
    (x.kind = y.kind → ¬ HasEq x → compare h a b = .err) := by
  refine ⟨?_, ?_, ?_, ?_⟩
  · rintro v w rfl rfl; rw [compare_eq ha hb]; rfl
  · rintro v w rfl rfl; rw [compare_eq ha hb]; rfl
  · rintro v w rfl rfl; rw [compare_eq ha hb]; rfl
  · intro k ne
    rw [compare_eq ha hb, if_neg (by simpa using k)]
    cases x <;> simp [HasEq, Obj.kind] at ne <;> cases y <;> simp [Obj.kind] at k <;> rfl

/-- A heap with values of every comparable type meets the hypotheses. -/
example : StringsOK [.none, .int 5, .str ⟨2, 2, [104, 105, 0]⟩, .float 0x8000000000000000#64,
      .float 0#64, .list [0, 1], .str ⟨2, 2, [104, 105, 0]⟩] ∧
    compare [.none, .int 5, .str ⟨2, 2, [104, 105, 0]⟩, .float 0x8000000000000000#64,
      .float 0#64, .list [0, 1], .str ⟨2, 2, [104, 105, 0]⟩] 2 6 = .ok true ∧
    compare [.none, .int 5, .str ⟨2, 2, [104, 105, 0]⟩, .float 0x8000000000000000#64,
      .float 0#64, .list [0, 1], .str ⟨2, 2, [104, 105, 0]⟩] 3 4 = .ok true := by
  refine ⟨?_, by decide, by decide⟩
  intro r s hr
  refine ⟨[104, 105], ?_⟩
  have : r < 7 := by
    have := (List.getElem?_eq_some_iff.mp hr).1; simpa using this
  match r with
  | 0 | 1 | 3 | 4 | 5 => simp at hr
  | 2 | 6 => simp at hr; subst hr; decide
  | n + 7 => omega

/-! ## C12 -/

/-- C12, the full property. -/
def C12Statement : Prop :=
  ∀ (h : Heap), StringsOK h → ∀ (a b fuel : Nat) (x y : BitVec 32), compare h a b = .ok true →
    hash h fuel a = .ok x → hash h fuel b = .ok y → x = y

/-- C12 is violated by 0.0 and -0.0: equal, but hashed by their bytes (o_float.c:64). -/
theorem C12_violated : ¬ C12Statement := by
  intro h
  have := h [.float 0#64, .float 0x8000000000000000#64]
    (by
      intro r s hr
      have : r < 2 := by
        have := (List.getElem?_eq_some_iff.mp hr).1; simpa using this
      match r with
      | 0 | 1 => simp at hr
      | n + 2 => omega)
    0 1 1 8#32 0x88#32
  revert this
  decide

theorem hash_succ {h : Heap} {n r : Nat} {o : Obj} (hr : h[r]? = some o) :
    hash h (n + 1) r = hashBody (hash h n) o := by
  have : hash h (n + 1) r = (rd h r >>= hashBody (hash h n)) := (rfl)
  rw [this, rd_ok_iff.mpr hr, Exec.bind_ok]

/-- C12 except for floating-point zeros and strings containing NUL characters (see
`Str.C12_string_violated`), which are the two ways it fails. -/
theorem C12_equal_hash_partial {h : Heap} (hs : StringsOK h) {a b fuel : Nat}
    (nul : ∀ (r : Nat) s, (r = a ∨ r = b) → h[r]? = some (Obj.str s) → (0 : UInt8) ∉ Str.Spec.contents s)
    (zero : ∀ bits, h[a]? = some (Obj.float bits) → isZero bits = false)
    (e : compare h a b = .ok true) : hash h fuel a = hash h fuel b := by
  obtain ⟨x, y, hx, hy, k, e⟩ := compare_true e
  cases fuel with
  | zero => exact (rfl : (Exec.diverge : Exec (BitVec 32)) = .diverge)
  | succ n =>
  rw [hash_succ hx, hash_succ hy]
  cases x <;> cases y <;> simp only [opEql, reduceCtorEq, Exec.ok.injEq, decide_eq_true_eq] at e <;> (try subst e) <;> try rfl
  · next f g =>
    have z := zero _ hx
    unfold floatEq at e
    simp [z] at e
    rw [e.2]
  · next s t =>
    obtain ⟨s1, f1⟩ := hs _ _ hx
    obtain ⟨s2, f2⟩ := hs _ _ hy
    have c1 : Str.Spec.contents s = s1 := by rw [(Str.wf_fromString f1).2.1, List.take_length]
    have c2 : Str.Spec.contents t = s2 := by rw [(Str.wf_fromString f2).2.1, List.take_length]
    have n1 := nul a s (.inl rfl) hx
    have n2 := nul b t (.inr rfl) hy
    rw [c1] at n1
    rw [c2] at n2
    obtain ⟨w, p, q⟩ := Str.C12_string_partial s1 s2 s t f1 f2 n1 n2 e
    exact p.trans q.symm

/-- Two equal strings at different places meet the hypotheses. -/
example : compare [.str ⟨2, 2, [104, 105, 0]⟩, .str ⟨2, 2, [104, 105, 0]⟩] 0 1 = .ok true ∧
    hash [.str ⟨2, 2, [104, 105, 0]⟩, .str ⟨2, 2, [104, 105, 0]⟩] 1 0 =
      hash [.str ⟨2, 2, [104, 105, 0]⟩, .str ⟨2, 2, [104, 105, 0]⟩] 1 1 := by decide

end Noja.Graph
