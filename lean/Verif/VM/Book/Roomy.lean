import Verif.VM.Book.Guards
import Verif.VM.GuardRef

/-!
# When maps find what is in them

A condition on the keys of a map, or the names in a scope, that does not speak of objects: there are at
most four different ones, or the code of each of them is below 2³¹. If it is met whenever something is
inserted, the tables of o_map.c lose nothing (`roomy_few`).
-/

set_option linter.unusedVariables false
set_option linter.unusedSimpArgs false

namespace Noja.VM.Book

open Noja.Graph (Obj Kind Heap)

/-- The code of a sequence of bytes. -/
def code (bs : List UInt8) : Nat :=
  let first := match bs with
    | [] => 0
    | b :: _ => b.toNat
  let x := bs.foldl (fun x b => (1000003 * x % 2 ^ 32) ^^^ b.toNat) (first * 128) ^^^ (bs.length % 2 ^ 32)
  if x = 2 ^ 32 - 1 then 2 ^ 32 - 2 else x

/-- The bytes of a whole number, the lowest first. -/
def bytesOf (v : Int) : List UInt8 := (List.range 8).map fun i => UInt8.ofNat ((v % 2 ^ 64).toNat / 256 ^ i)

/-- Whether the code of a key is below 2³¹. That of a text is the code of as many of its bytes as it has
code points. -/
def Key.low : Key → Bool
  | .none => true
  | .bool _ => true
  | .int v => decide (code (bytesOf v) < 2 ^ 31)
  | .float x => decide (code (bytesOf x.toNat) < 2 ^ 31)
  | .text bs =>
    match readText bs with
    | some t => decide (code (bs.take t.length) < 2 ^ 31)
    | Option.none => false

/-- At most four keys, or keys with low codes. -/
def roomy (ks : List Key) : Bool := decide ((distinct ks).length < 5) || ks.all Key.low

/-! ## The code is the hash -/

theorem hashLoop_fold (mem : List UInt8) : ∀ (len i : Nat) (x : BitVec 32), i + len ≤ mem.length →
    ∃ y, hashLoop mem len i x = .ok y ∧
      y.toNat = ((mem.drop i).take len).foldl (fun x b => (1000003 * x % 2 ^ 32) ^^^ b.toNat) x.toNat
  | 0, i, x, h => ⟨x, rfl, by simp⟩
  | n + 1, i, x, h => by
    have hi : i < mem.length := by omega
    obtain ⟨y, h1, h2⟩ := hashLoop_fold mem n (i + 1) ((1000003#32 * x) ^^^ BitVec.ofNat 32 mem[i].toNat) (by omega)
    refine ⟨y, ?_, ?_⟩
    · rw [hashLoop, rd_of_lt hi]
      exact h1
    · rw [h2, List.drop_eq_getElem_cons hi, List.take_succ_cons, List.foldl_cons]
      congr 1
      rw [BitVec.toNat_xor, BitVec.toNat_mul, BitVec.toNat_ofNat, BitVec.toNat_ofNat,
        Nat.mod_eq_of_lt (show mem[i].toNat < 2 ^ 32 from Nat.lt_trans mem[i].toNat_lt (by decide)),
        Nat.mod_eq_of_lt (show 1000003 < 2 ^ 32 by decide)]

/-- hash.c: the hash of bytes is their code. -/
theorem hash_code (mem : List UInt8) (len : Nat) (h : len ≤ mem.length) (h0 : 0 < mem.length)
    (he : len = 0 → mem[0]? = some 0) : ∃ y, hashbytes mem len = .ok y ∧ y.toNat = code (mem.take len) := by
  obtain ⟨y, h1, h2⟩ := hashLoop_fold mem len 0 (BitVec.ofNat 32 (mem[0].toNat <<< 7)) (by omega)
  refine ⟨if y ^^^ BitVec.ofNat 32 len = -1#32 then -2#32 else y ^^^ BitVec.ofNat 32 len, ?_, ?_⟩
  · unfold hashbytes
    rw [rd_of_lt h0, Exec.bind_ok]
    simp only [h1, Exec.bind_ok]
  · rw [List.drop_zero] at h2
    have hb : (BitVec.ofNat 32 (mem[0].toNat <<< 7)).toNat = mem[0].toNat * 128 := by
      rw [BitVec.toNat_ofNat, Nat.shiftLeft_eq]
      have := mem[0].toNat_lt
      exact Nat.mod_eq_of_lt (by omega)
    have hfirst : (match mem.take len with
        | [] => 0
        | b :: _ => b.toNat) = mem[0].toNat := by
      cases mem with
      | nil => exact absurd h0 (Nat.lt_irrefl _)
      | cons b mem =>
        cases len with
        | zero =>
          have := he rfl
          rw [List.getElem?_cons_zero] at this
          cases this
          rfl
        | succ n => rfl
    have hlen : (mem.take len).length = len := by rw [List.length_take]; omega
    unfold code
    simp only [hfirst, hlen]
    rw [hb] at h2
    rw [← h2]
    have hx : (y ^^^ BitVec.ofNat 32 len).toNat = y.toNat ^^^ (len % 2 ^ 32) := by
      rw [BitVec.toNat_xor, BitVec.toNat_ofNat]
    rw [← hx]
    by_cases q : y ^^^ BitVec.ofNat 32 len = -1#32
    · rw [if_pos q, q]
      rfl
    · rw [if_neg q, if_neg]
      intro hq
      apply q
      apply BitVec.eq_of_toNat_eq
      rw [hq]
      rfl

theorem leBytes_range : ∀ (n v : Nat), IntKey.leBytes n v = (List.range n).map fun i => UInt8.ofNat (v / 256 ^ i)
  | 0, v => rfl
  | n + 1, v => by
    rw [IntKey.leBytes, leBytes_range n, List.range_succ_eq_map, List.map_cons, List.map_map]
    congr 1
    · simp
    · refine List.map_congr_left fun i _ => ?_
      simp only [Function.comp, Nat.pow_succ']
      rw [Nat.div_div_eq_div_mul]

theorem leBytes_bytes (v : Int) : IntKey.leBytes 8 (toSize v) = bytesOf v := leBytes_range 8 _

/-! ## Keys and objects -/

/-- The object that a key is. -/
def Key.obj : Key → Option Obj
  | .none => some .none
  | .bool b => some (.bool b)
  | .int v => some (.int v)
  | .float x => some (.float x)
  | .text bs =>
    match Str.fromString bs bs.length with
    | .ok s => some (.str s)
    | _ => Option.none

theorem KeyIs.at {h : Heap} {r : Ref} {k : Key} (hk : KeyIs h r k) : keyAt h r = k.obj := by
  cases k with
  | text bs =>
    have hkey := isKey_name hk
    obtain ⟨s, src, len, h1, h2, h3, h4⟩ := hk
    have h5 := fromString_again h2
    have hl : s.bytes = bs.length := by
      rw [← h3, List.length_take]
      have : s.body.length = s.bytes + 1 := (Str.wf_fromString h2).1
      omega
    rw [h3, hl] at h5
    rw [keyAt_key h1 (isAtom_name h2 (by rw [h3]; exact h4))]
    unfold Key.obj
    simp only [h5]
  | float x => exact keyAt_key hk.1 (by simp [isAtom, hk.2.1, hk.2.2])
  | _ => exact keyAt_key hk rfl

theorem KeyIs.low {h : Heap} {r : Ref} {k : Key} (hk : KeyIs h r k) (hl : k.low = true) : ((aops h).hash r).toNat < 2 ^ 31 := by
  have hat := hk.at
  have go : ∀ {o : Obj} {y : BitVec 32}, k.obj = some o → Graph.hashBody (fun _ => .ub) o = .ok y → y.toNat < 2 ^ 31 →
      ((aops h).hash r).toNat < 2 ^ 31 := by
    intro o y h1 h2 h3
    unfold aops
    simp only [hat, h1, h2]
    exact h3
  cases k with
  | none => exact go (o := .none) (y := 0) rfl rfl (by decide)
  | bool b => exact go (o := .bool b) (y := if b then 1 else 0) rfl rfl (by cases b <;> decide)
  | int v =>
    have hlen : (bytesOf v).length = 8 := by simp [bytesOf]
    obtain ⟨y, h1, h2⟩ := hash_code (bytesOf v) 8 (by omega) (by omega) (by omega)
    refine go (o := .int v) (y := y) rfl ?_ ?_
    · show hashbytes (IntKey.leBytes 8 (toSize v)) 8 = _
      rw [leBytes_bytes]
      exact h1
    · rw [h2, List.take_of_length_le (by omega)]
      exact of_decide_eq_true hl
  | float x =>
    have hlen : (bytesOf x.toNat).length = 8 := by simp [bytesOf]
    obtain ⟨y, h1, h2⟩ := hash_code (bytesOf x.toNat) 8 (by omega) (by omega) (by omega)
    refine go (o := .float x) (y := y) rfl ?_ ?_
    · show hashbytes (IntKey.leBytes 8 x.toNat) 8 = _
      have : x.toNat = toSize (x.toNat : Int) := by
        have := x.isLt
        unfold toSize
        omega
      rw [this, leBytes_bytes]
      exact h1
    · rw [h2, List.take_of_length_le (by omega)]
      exact of_decide_eq_true hl
  | text bs =>
    unfold Key.low at hl
    dsimp only at hl
    cases ht : readText bs with
    | none => rw [ht] at hl; cases hl
    | some t =>
      rw [ht] at hl
      obtain ⟨hp, rfl⟩ := readText_eq ht
      have hf := Str.C03_fromString t hp.valid []
      rw [List.append_nil] at hf
      have ho : (Key.text (Utf8.Spec.encodeText t)).obj = some (.str (Str.Spec.ofText t)) := by
        unfold Key.obj
        simp only [hf]
      have hcount : t.length ≤ (Utf8.Spec.encodeText t).length := by
        clear hl hf ho ht hat hk go
        induction t with
        | nil => exact Nat.le_refl _
        | cons c t ih =>
          have := ih (fun c hc => hp c (List.mem_cons_of_mem _ hc))
          have h1 : 0 < (Utf8.Spec.encode c).length := Utf8.encode_length_pos c (hp c (List.mem_cons_self ..)).2
          show t.length + 1 ≤ (Utf8.Spec.encode c ++ Utf8.Spec.encodeText t).length
          rw [List.length_append]
          omega
      obtain ⟨y, h1, h2⟩ := hash_code (Utf8.Spec.encodeText t ++ [0]) t.length (by simp; omega) (by simp) (fun h0 => by
        have : t = [] := List.eq_nil_of_length_eq_zero h0
        subst this
        rfl)
      refine go ho (y := y) h1 ?_
      rw [h2, List.take_append_of_le_length hcount]
      exact of_decide_eq_true hl

/-- What `roomy` says about keys, `few` says about objects. -/
theorem roomy_few (h : Heap) (rs : List Ref) (ks : List Key) (hk : ∀ r ∈ rs, ∃ k ∈ ks, KeyIs h r k) (hf : roomy ks = true) :
    few h rs = true := by
  unfold roomy at hf
  unfold few
  rw [Bool.or_eq_true, decide_eq_true_eq] at hf ⊢
  rcases hf with hf | hf
  · refine .inl (Nat.lt_of_le_of_lt ?_ hf)
    have h1 : (distinct (rs.map (keyAt h))).length ≤ ((distinct ks).map Key.obj).length := by
      refine length_le_of_subset (distinct_nodup _) fun o ho => ?_
      obtain ⟨r, hr, rfl⟩ := List.mem_map.1 (mem_distinct.1 ho)
      obtain ⟨k, hk1, hk2⟩ := hk r hr
      exact List.mem_map.2 ⟨k, mem_distinct.2 hk1, hk2.at.symm⟩
    rw [List.length_map] at h1
    exact h1
  · refine .inr (List.all_eq_true.2 fun r hr => ?_)
    obtain ⟨k, hk1, hk2⟩ := hk r hr
    exact decide_eq_true (hk2.low (List.all_eq_true.1 hf k hk1))

/-- The names from `e` to `j` have low codes; of `o`, `l`, `q`, `value`, `a`, the last two have not. -/
example : roomy [.text [101], .text [102], .text [103], .text [104], .text [105], .text [106]] = true := by decide +kernel
example : roomy [.text [111], .text [108], .text [113], .text [118, 97, 108, 117, 101], .text [97]] = false := by decide +kernel

/-- Five of the whole numbers from 0, and any four keys. -/
example : roomy [.int 0, .int 1, .int 2, .int 3, .int 4] = true := by decide +kernel
example : roomy [.text [111], .text [108], .text [113], .text [118, 97, 108, 117, 101]] = true := by decide +kernel

end Noja.VM.Book
