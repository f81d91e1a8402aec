import Mathlib.Tactic.NormNum
import Verif.Model.Release

/-!
# C82: the arithmetic of a release build
-/

namespace Hdr

/-- the shift of an `i32` -/
theorem shlI32_machine (a : Int32) (n : UInt8) :
    Release.shlI32 a.toInt n.toNat = .ok (a <<< Int32.ofNat n.toNat).toInt := by
  have hn : n.toNat < 256 := n.toNat_lt
  generalize n.toNat = m at hn
  have h2 : (a <<< Int32.ofNat m).toBitVec = a.toBitVec <<< (m % 32) := by
    show a.toBitVec <<< ((Int32.ofNat m).toBitVec.smod 32) = _
    have : (Int32.ofNat m).toBitVec.smod 32 = BitVec.ofNat 32 (m % 32) := by
      have : ∀ k < 256, (Int32.ofNat k).toBitVec.smod 32 = BitVec.ofNat 32 (k % 32) := by decide +kernel
      exact this m hn
    rw [this]
    show a.toBitVec <<< (BitVec.ofNat 32 (m % 32)).toNat = _
    rw [BitVec.toNat_ofNat, Nat.mod_eq_of_lt (by omega)]
  show _ = Except.ok (a <<< Int32.ofNat m).toBitVec.toInt
  rw [h2, BitVec.toInt_shiftLeft]
  unfold Release.shlI32 wrapI32
  refine congrArg Except.ok ?_
  rw [Nat.shiftLeft_eq]
  have h3 : a.toInt = (a.toBitVec.toNat : Int).bmod (2 ^ 32) := BitVec.toInt_eq_toNat_bmod _
  rw [h3]
  generalize a.toBitVec.toNat = x
  have key : ∀ z : Int, (z + 2147483648) % 4294967296 - 2147483648 = z.bmod (2 ^ 32) := by
    intro z; rw [Int.bmod]; norm_num; split <;> omega
  rw [key, Int.bmod_mul_bmod]
  push_cast
  rfl

/-- C82 (4): the arithmetic of a release build is that of the machine: Lean's own fixed-width integers, for operands of the
type in question. (Shift amounts are reduced modulo the width.) -/
theorem C82_arithmetic :
    (∀ a b : UInt8, Release.addU8 a.toNat b.toNat = .ok (a + b).toNat ∧ Release.subU8 a.toNat b.toNat = .ok (a - b).toNat) ∧
    (∀ a b : UInt32, Release.addU32 a.toNat b.toNat = .ok (a + b).toNat ∧ Release.subU32 a.toNat b.toNat = .ok (a - b).toNat ∧
      Release.mulU32 a.toNat b.toNat = .ok (a * b).toNat ∧ Release.shlU32 a.toNat b.toNat = .ok (a <<< b).toNat) ∧
    (∀ a b : UInt64, Release.addU64 a.toNat b.toNat = .ok (a + b).toNat ∧ Release.subU64 a.toNat b.toNat = .ok (a - b).toNat ∧
      Release.mulU64 a.toNat b.toNat = .ok (a * b).toNat ∧ Release.shlU64 a.toNat b.toNat = .ok (a <<< b).toNat ∧
      Release.shrU64 a.toNat b.toNat = .ok (a >>> b).toNat) ∧
    (∀ a : Int32, ∀ n : UInt8, Release.shlI32 a.toInt n.toNat = .ok (a <<< Int32.ofNat n.toNat).toInt) ∧
    (∀ a b : Int32, Release.wrapI32M (a.toInt + b.toInt) = .ok (a + b).toInt ∧
      Release.wrapI32M (a.toInt - b.toInt) = .ok (a - b).toInt) ∧
    (∀ a b : Int64, Release.wrapI64M (a.toInt - b.toInt) = .ok (a - b).toInt) := by
  have sub8 : ∀ bits x y : Nat, x < 2 ^ bits → y < 2 ^ bits → Release.wrapSub bits x y = (2 ^ bits - y + x) % 2 ^ bits := by
    intro bits x y hx hy
    unfold Release.wrapSub
    split
    · rw [show 2 ^ bits - y + x = x - y + 2 ^ bits by omega, Nat.add_mod_right, Nat.mod_eq_of_lt (by omega)]
    · rw [Nat.mod_eq_of_lt (by omega)]; omega
  refine ⟨fun a b => ⟨?_, ?_⟩, fun a b => ⟨?_, ?_, ?_, ?_⟩, fun a b => ⟨?_, ?_, ?_, ?_, ?_⟩, fun a n => ?_, fun a b => ⟨?_, ?_⟩,
    fun a b => ?_⟩
  · rw [UInt8.toNat_add]; rfl
  · unfold Release.subU8; rw [UInt8.toNat_sub, sub8 8 _ _ a.toNat_lt b.toNat_lt]
  · rw [UInt32.toNat_add]; rfl
  · unfold Release.subU32; rw [UInt32.toNat_sub, sub8 32 _ _ a.toNat_lt b.toNat_lt]
  · rw [UInt32.toNat_mul]; rfl
  · rw [UInt32.toNat_shiftLeft, Nat.shiftLeft_eq]; rfl
  · rw [UInt64.toNat_add]; rfl
  · unfold Release.subU64; rw [UInt64.toNat_sub, sub8 64 _ _ a.toNat_lt b.toNat_lt]
  · rw [UInt64.toNat_mul]; rfl
  · rw [UInt64.toNat_shiftLeft, Nat.shiftLeft_eq]; rfl
  · rw [UInt64.toNat_shiftRight, Nat.shiftRight_eq_div_pow]; rfl
  · exact shlI32_machine a n
  · rw [Int32.toInt_add, Int.bmod]; unfold Release.wrapI32M wrapI32; norm_num; split <;> omega
  · rw [Int32.toInt_sub, Int.bmod]; unfold Release.wrapI32M wrapI32; norm_num; split <;> omega
  · rw [Int64.toInt_sub, Int.bmod]; unfold Release.wrapI64M; norm_num; split <;> omega

example : Release.addU8 200 100 = .ok 44 ∧ Release.subU64 0 1 = .ok U64MAX ∧ Release.shlU64 3 65 = .ok 6 := by decide

end Hdr
