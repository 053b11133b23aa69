/-!
# Outcomes of modelled C functions

`Exec α` is the outcome of running a piece of the C code:

* `ok a`     – it returned normally with `a`;
* `err`      – it reported an error through the API (negative/NULL return
               and/or `Error_Report`);
* `ub`       – it executed undefined behaviour (out-of-bounds access, signed
               overflow, division by zero, use of freed memory, ...);
* `diverge`  – the fuel given to a loop ran out.  Theorems show that the fuel
               given is enough, so `diverge` means the C loop does not end.
-/

namespace Noja

inductive Exec (α : Type u) where
  | ok (a : α)
  | err
  | ub
  | diverge
deriving Repr, DecidableEq

namespace Exec

@[inline] def bind {α : Type u} {β : Type v} (x : Exec α) (f : α → Exec β) : Exec β :=
  match x with
  | ok a => f a
  | err => err
  | ub => ub
  | diverge => diverge

instance : Monad Exec where
  pure := ok
  bind := bind

@[simp] theorem pure_eq {α : Type u} (a : α) : (pure a : Exec α) = ok a := (rfl)
@[simp] theorem bind_ok {α β : Type u} (a : α) (f : α → Exec β) : (ok a >>= f) = f a := (rfl)
@[simp] theorem bind_err {α β : Type u} (f : α → Exec β) : ((err : Exec α) >>= f) = err := (rfl)
@[simp] theorem bind_ub {α β : Type u} (f : α → Exec β) : ((ub : Exec α) >>= f) = ub := (rfl)
@[simp] theorem bind_diverge {α β : Type u} (f : α → Exec β) :
    ((diverge : Exec α) >>= f) = diverge := (rfl)

theorem bind_eq_ub {α β : Type u} {x : Exec α} {f : α → Exec β} :
    (x >>= f) = ub ↔ x = ub ∨ ∃ a, x = ok a ∧ f a = ub := by
  cases x <;> simp

theorem bind_eq_ok {α β : Type u} {x : Exec α} {f : α → Exec β} {b : β} :
    (x >>= f) = ok b ↔ ∃ a, x = ok a ∧ f a = ok b := by
  cases x <;> simp

end Exec

/-- A checked read of byte `i` of the memory block `mem` (the bytes from a
pointer to the end of the block it points into): out of bounds is `ub`. -/
def rd {α : Type u} (mem : List α) (i : Nat) : Exec α :=
  match mem[i]? with
  | some b => .ok b
  | none => .ub

theorem rd_of_lt {α : Type u} {mem : List α} {i : Nat} (h : i < mem.length) :
    rd mem i = .ok mem[i] := by
  simp [rd, h]

theorem rd_ok_iff {α : Type u} {mem : List α} {i : Nat} {b : α} :
    rd mem i = .ok b ↔ mem[i]? = some b := by
  unfold rd
  cases h : mem[i]? <;> simp

end Noja
