import Verif.VM.Move.Rel

/-!
# Closures and functions stay what they are
-/

set_option linter.unusedVariables false

namespace Noja.VM.Move

open Noja.Graph (Obj Kind Heap)

/-- Objects without contents of their own stay. -/
def Opq (h h' : Heap) : Prop := ∀ (r : Nat) (k : Kind), h[r]? = some (.opaque k) → h'[r]? = some (.opaque k)

theorem Opq.refl (h : Heap) : Opq h h := fun _ _ q => q
theorem Opq.trans {a b c : Heap} (h : Opq a b) (h' : Opq b c) : Opq a c := fun r k q => h' r k (h r k q)

theorem Opq.append (h l : Heap) : Opq h (h ++ l) := by
  intro r k q
  rw [List.getElem?_append_left (by rcases List.getElem?_eq_some_iff.1 q with ⟨hl, _⟩; exact hl)]
  exact q

theorem Opq.set {h h' : Heap} (q : Opq h h') {m : Nat} (o : Obj) (hm : ∀ k, h[m]? ≠ some (.opaque k)) : Opq h (h'.set m o) := by
  intro r k e
  have hne : m ≠ r := fun x => hm k (by rw [x]; exact e)
  rw [List.getElem?_set_ne hne]
  exact q r k e

def HOpq (h : Heap) : Exec Heap → Prop
  | .ok h' => Opq h h'
  | _ => True

def COpq {α : Type} (h : Heap) : Exec (Heap × α) → Prop
  | .ok x => Opq h x.1
  | _ => True

variable {hit : Nat → Nat → Bool} {hs : Heap → Nat → Exec (BitVec 32)} {c : Heap → Nat → Exec (Heap × Nat)}

theorem copyItems_opq (hc : ∀ h r, COpq h (c h r)) : ∀ (l : List Nat) (h : Heap), COpq h (Graph.copyItems c h l)
  | [], h => .refl h
  | a :: l, h => by
    unfold Graph.copyItems
    have h1 := hc h a
    cases e : c h a with
    | ok x =>
      rw [e] at h1
      obtain ⟨x1, x2⟩ := x
      rw [Exec.bind_ok]
      dsimp only
      have h2 := copyItems_opq hc l x1
      cases e2 : Graph.copyItems c x1 l with
      | ok y =>
        rw [e2] at h2
        exact Opq.trans h1 h2
      | _ => trivial
    | _ => trivial

theorem mapInsert_opq (hc : ∀ h r, COpq h (c h r)) (h : Heap) (m k v : Nat) : HOpq h (Graph.mapInsert hit hs c h m k v) := by
  unfold Graph.mapInsert rd
  cases e : h[m]? with
  | none => trivial
  | some o =>
    rw [Exec.bind_ok]
    cases o with
    | map es =>
      have hm : ∀ k, h[m]? ≠ some (.opaque k) := by
        intro k q
        rw [e] at q
        cases q
      dsimp only
      cases hs h k with
      | ok _ =>
        rw [Exec.bind_ok]
        cases Graph.findKey hit h k es 0 with
        | ok i =>
          rw [Exec.bind_ok]
          cases i with
          | some i =>
            dsimp only
            cases es[i]? with
            | some x => exact (Opq.refl h).set _ hm
            | none => trivial
          | none =>
            dsimp only
            have h1 := hc h k
            cases e2 : c h k with
            | ok x =>
              rw [e2] at h1
              exact Opq.set (show Opq h x.1 from h1) _ hm
            | _ => trivial
        | _ => trivial
      | _ => trivial
    | _ => trivial

theorem copyEntries_opq (hc : ∀ h r, COpq h (c h r)) (m : Nat) : ∀ (l : List (Nat × Nat)) (h : Heap),
    HOpq h (Graph.copyEntries hit hs c m h l)
  | [], h => .refl h
  | (a, b) :: l, h => by
    unfold Graph.copyEntries
    have h1 := hc h a
    cases e : c h a with
    | ok x =>
      rw [e] at h1
      obtain ⟨x1, x2⟩ := x
      rw [Exec.bind_ok]
      dsimp only
      have h2 := hc x1 b
      cases e2 : c x1 b with
      | ok y =>
        rw [e2] at h2
        obtain ⟨y1, y2⟩ := y
        rw [Exec.bind_ok]
        dsimp only
        have h3 := mapInsert_opq (hit := hit) (hs := hs) hc y1 m x2 y2
        cases e3 : Graph.mapInsert hit hs c y1 m x2 y2 with
        | ok z =>
          rw [e3] at h3
          rw [Exec.bind_ok]
          have h4 := copyEntries_opq hc m l z
          cases e4 : Graph.copyEntries hit hs c m z l with
          | ok u =>
            rw [e4] at h4
            exact Opq.trans (Opq.trans h1 h2) (Opq.trans h3 h4)
          | _ => trivial
        | _ => trivial
      | _ => trivial
    | _ => trivial

theorem copyBody_opq (hc : ∀ h r, COpq h (c h r)) (h : Heap) (r : Nat) (o : Obj) : COpq h (Graph.copyBody hit hs c h r o) := by
  have hnew : ∀ k, h[h.length]? ≠ some (.opaque k) := by
    intro k q
    rw [List.getElem?_eq_none (Nat.le_refl _)] at q
    cases q
  cases o with
  | list l =>
    unfold Graph.copyBody
    dsimp only
    have h1 := copyItems_opq hc l (h ++ [.list []])
    cases e : Graph.copyItems c (h ++ [.list []]) l with
    | ok x =>
      rw [e] at h1
      exact Opq.set (show Opq h x.1 from Opq.trans (Opq.append h _) h1) _ hnew
    | _ => trivial
  | map l =>
    unfold Graph.copyBody
    dsimp only
    have h1 := copyEntries_opq (hit := hit) (hs := hs) hc h.length l (h ++ [.map []])
    cases e : Graph.copyEntries hit hs c h.length (h ++ [.map []]) l with
    | ok x =>
      rw [e] at h1
      exact Opq.trans (Opq.append h _) h1
    | _ => trivial
  | «opaque» k => cases k <;> first | trivial | exact Opq.refl h
  | _ => first | trivial | exact Opq.refl h

theorem copy_opq : ∀ (n : Nat) (h : Heap) (r : Nat), COpq h (Graph.copy hit n h r)
  | 0, _, _ => trivial
  | n + 1, h, r => by
    unfold Graph.copy rd
    cases h[r]? with
    | none => trivial
    | some o =>
      rw [Exec.bind_ok]
      exact copyBody_opq (copy_opq n) h r o

end Noja.VM.Move
