import Verif.Hash
import Verif.Obj.Map

/-! # Integers as map keys (`src/lib/objects/o_int.c`) -/

namespace Noja.IntKey

/-- The `n` low bytes of `v`, least significant first (x86-64 memory layout). -/
def leBytes : (n v : Nat) → List UInt8
  | 0, _ => []
  | n + 1, v => UInt8.ofNat v :: leBytes n (v / 256)

/-- o_int.c:57-64 `hash`: `hashbytes` of the 8 bytes of the value. -/
def hash (v : Int) : Exec (BitVec 32) := hashbytes (leBytes 8 (toSize v)) 8

/-- o_int.c `op_eql` and `hash` as operations on map keys. -/
def ops : Map.KeyOps Int where
  hash v := match hash v with
    | .ok h => h
    | _ => 0
  cmp a b := .ok (decide (a = b))

end Noja.IntKey
