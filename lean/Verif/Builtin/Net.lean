import Verif.Exec
import Verif.CInt

/-!
# Ports and addresses (builtins/net.c): C97

Ports and addresses are in memory in network order, the most significant byte first, whatever the machine.

Simplifications: arguments are of the right kind; the machine is little-endian.
-/

namespace Noja.Net

/-! ## Model -/

/-- net.c:54, 68: the argument as an `int` (utils.c: `parseArgs`), of which `htons` takes 16 bits; the bytes of `sin_port`. -/
def bindPort (port : Int) : UInt8 × UInt8 :=
  let p := (toI32 port % 65536).toNat
  (UInt8.ofNat (p / 256), UInt8.ofNat (p % 256))

/-- net.c:173: `sin_port` as a number, little-endian. -/
def acceptPort (b : UInt8 × UInt8) : Int := b.1.toNat + 256 * b.2.toNat

/-- net.c:173: `s_addr` as a number, little-endian, through `va_arg(va, int)` (utils.c:17). -/
def acceptAddr (b : UInt8 × UInt8 × UInt8 × UInt8) : Int :=
  toI32 (b.1.toNat + 256 * b.2.1.toNat + 65536 * b.2.2.1.toNat + 16777216 * b.2.2.2.toNat)

/-! ## C97 -/

/-- The number that two bytes are in network order. -/
def Means (b : UInt8 × UInt8) (p : Int) : Prop := p = 256 * b.1.toNat + b.2.toNat

/-- **C97**: `net.bind` binds the port it is given, and `net.accept` gives the port and the address of the other side, the latter in
a form from which it can be told. -/
def C97Statement : Prop :=
  (∀ port, IsI64 port → Means (bindPort port) port) ∧ (∀ b p, Means b p → acceptPort b = p) ∧
  ∀ a b, acceptAddr a = acceptAddr b → a = b

/-- Ports are bound as they are given exactly if they are ports. -/
theorem C97_bind (port : Int) (h : IsI64 port) : Means (bindPort port) port ↔ 0 ≤ port ∧ port < 65536 := by
  unfold Means bindPort
  dsimp only
  rw [UInt8.toNat_ofNat', UInt8.toNat_ofNat']
  constructor
  · intro e
    omega
  · rintro ⟨h1, h2⟩
    have : toI32 port = port := toI32_of_isI32 (by unfold IsI32; omega)
    rw [this]
    omega

/-- The ports of the other side have their two bytes exchanged: they are right exactly if these are equal. -/
theorem C97_accept (b : UInt8 × UInt8) (p : Int) (h : Means b p) : acceptPort b = p ↔ b.1 = b.2 := by
  unfold Means at h
  unfold acceptPort
  rw [← UInt8.toNat_inj]
  have h1 := b.1.toNat_lt
  have h2 := b.2.toNat_lt
  omega

theorem toI32_inj {x y : Nat} (hx : x < 2 ^ 32) (hy : y < 2 ^ 32) (h : toI32 x = toI32 y) : x = y := by
  unfold toI32 at h
  have := (Int.bmod_eq_bmod_iff_bmod_sub_eq_zero).1 h
  have := Int.dvd_of_bmod_eq_zero this
  omega

/-- No two addresses are given as the same number. -/
theorem C97_address (a b : UInt8 × UInt8 × UInt8 × UInt8) (h : acceptAddr a = acceptAddr b) : a = b := by
  obtain ⟨a0, a1, a2, a3⟩ := a
  obtain ⟨b0, b1, b2, b3⟩ := b
  have p0 := a0.toNat_lt
  have p1 := a1.toNat_lt
  have p2 := a2.toNat_lt
  have p3 := a3.toNat_lt
  have q0 := b0.toNat_lt
  have q1 := b1.toNat_lt
  have q2 := b2.toNat_lt
  have q3 := b3.toNat_lt
  have key : a0.toNat + 256 * a1.toNat + 65536 * a2.toNat + 16777216 * a3.toNat =
      b0.toNat + 256 * b1.toNat + 65536 * b2.toNat + 16777216 * b3.toNat := by
    refine toI32_inj (by omega) (by omega) ?_
    unfold acceptAddr at h
    dsimp only at h
    rw [Int.natCast_add, Int.natCast_add, Int.natCast_add, Int.natCast_add, Int.natCast_add, Int.natCast_add]
    exact h
  have e0 : a0 = b0 := UInt8.toNat_inj.1 (by omega)
  have e1 : a1 = b1 := UInt8.toNat_inj.1 (by omega)
  have e2 : a2 = b2 := UInt8.toNat_inj.1 (by omega)
  have e3 : a3 = b3 := UInt8.toNat_inj.1 (by omega)
  rw [e0, e1, e2, e3]

/-- **C97, partial**: for ports from 0 to 65535, `net.bind` binds the port it is given; `net.accept` gives the port with its bytes exchanged
and the address in a form from which it can be told. -/
theorem C97_partial :
    (∀ port, 0 ≤ port → port < 65536 → Means (bindPort port) port) ∧ (∀ b p, Means b p → Means (b.2, b.1) (acceptPort b)) ∧
    ∀ a b, acceptAddr a = acceptAddr b → a = b := by
  refine ⟨fun port h1 h2 => (C97_bind port (by unfold IsI64; omega)).2 ⟨h1, h2⟩, fun b p _ => ?_, C97_address⟩
  unfold Means acceptPort
  dsimp only
  omega

/-- C97 does not hold: port 65616 is port 80. -/
theorem C97_violated : ¬ C97Statement := by
  intro h
  have := (C97_bind 65616 (by decide)).1 (h.1 65616 (by decide))
  omega

/-- C97 does not hold: port 80 of the other side is given as 20480. -/
theorem C97_violated_accept : ¬ C97Statement := by
  intro h
  exact absurd (h.2.1 (0, 80) 80 (by unfold Means; decide)) (by decide)

/-- Port 8080, and 127.0.0.1. -/
example : bindPort 8080 = (31, 144) ∧ acceptPort (31, 144) = 36895 ∧ acceptAddr (127, 0, 0, 1) = 16777343 := by decide

end Noja.Net
