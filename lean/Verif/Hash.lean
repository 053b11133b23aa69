import Verif.Exec

/-! # Model of `src/lib/utils/hash.c` -/

namespace Noja

/-- hash.c:40-41, the loop body and loop over the remaining bytes:
`x = (1000003UL * x) ^ *str++`, truncated to 32 bits (the low 32 bits of the
64-bit product only depend on the low 32 bits of `x`). -/
def hashLoop (mem : List UInt8) : (len i : Nat) → BitVec 32 → Exec (BitVec 32)
  | 0, _, x => .ok x
  | len + 1, i, x => do
    let b ← rd mem i
    hashLoop mem len (i + 1) ((1000003#32 * x) ^^^ BitVec.ofNat 32 b.toNat)

/-- hash.c:34-49 `hashbytes(str, len)`.  `*str` is read even when `len = 0`. -/
def hashbytes (mem : List UInt8) (len : Nat) : Exec (BitVec 32) := do
  let b ← rd mem 0
  let x := BitVec.ofNat 32 (b.toNat <<< 7)
  let x ← hashLoop mem len 0 x
  let x := x ^^^ BitVec.ofNat 32 len
  .ok (if x = -1#32 then -2#32 else x)

end Noja
