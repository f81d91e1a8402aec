import Verif.Model.Varint
import Verif.Proofs.Layout

/-!
# Variable-length integers: closed forms and round trips
-/

namespace Hdr.V2

set_option linter.unusedSimpArgs false

/-- The LEB128-64b9B encoding: up to `k` groups of seven bits with continuation flag, then one raw
byte. -/
def leb : Nat → Nat → List UInt8
  | 0, x => [UInt8.ofNat x]
  | k + 1, x => if x < 128 then [UInt8.ofNat x] else UInt8.ofNat (x % 128 + 128) :: leb k (x / 128)

/-- Its decoder: the number and the rest of the input. -/
def unleb : Nat → List UInt8 → Option (Nat × List UInt8)
  | _, [] => none
  | 0, b :: r => some (b.toNat, r)
  | k + 1, b :: r =>
    if b.toNat < 128 then some (b.toNat, r)
    else (unleb k r).map fun p => (b.toNat % 128 + 128 * p.1, p.2)

theorem toNat_lt (b : UInt8) : b.toNat < 256 := b.toBitVec.isLt

theorem low7_eq (b : UInt8) : low7Bits b = b.toNat % 128 := by
  unfold low7Bits
  rw [UInt8.toNat_and]
  exact Nat.and_two_pow_sub_one_eq_mod _ 7

set_option maxRecDepth 8000 in
theorem high_eq (b : UInt8) : isHighBitSet b = decide (128 ≤ b.toNat) := by
  have : ∀ n : Fin 256, isHighBitSet (UInt8.ofNat n.val) = decide (128 ≤ (UInt8.ofNat n.val).toNat) := by
    decide
  have h := this ⟨b.toNat, toNat_lt b⟩
  simpa using h

theorem or_shl {a b k : Nat} (h : a < 2 ^ k) : a ||| (b <<< k) = a + b * 2 ^ k := by
  rw [Nat.or_comm, ← Nat.shiftLeft_add_eq_or_of_lt h, Nat.shiftLeft_eq]; omega

theorem leb_length (k x : Nat) : 1 ≤ (leb k x).length ∧ (leb k x).length ≤ k + 1 := by
  induction k generalizing x with
  | zero => simp [leb]
  | succ k ih =>
    unfold leb
    split
    · simp
    · have := ih (x / 128); simp only [List.length_cons]; omega

theorem unleb_leb (k x : Nat) (hx : x < 128 ^ k * 256) (r : List UInt8) :
    unleb k (leb k x ++ r) = some (x, r) := by
  induction k generalizing x with
  | zero =>
    simp only [leb, List.singleton_append, unleb]
    simp only [Option.some.injEq, Prod.mk.injEq, and_true]
    rw [UInt8.toNat_ofNat']; omega
  | succ k ih =>
    unfold leb
    split
    · rename_i h
      have e : (UInt8.ofNat x).toNat = x := by rw [UInt8.toNat_ofNat']; omega
      simp only [List.singleton_append, unleb, e, if_pos h]
    · rename_i h
      have e : (UInt8.ofNat (x % 128 + 128)).toNat = x % 128 + 128 := by
        rw [UInt8.toNat_ofNat']; omega
      simp only [List.cons_append, unleb, e]
      rw [if_neg (by omega), ih (x / 128) (by rw [Nat.div_lt_iff_lt_mul (by norm_num)]; rw [pow_succ] at hx; linarith)]
      simp only [Option.map_some, Option.some.injEq, Prod.mk.injEq, and_true]
      omega

theorem unleb_prefix (k x : Nat) (p : List UInt8) (hp : p <+: leb k x) (hne : p ≠ leb k x) :
    unleb k p = none := by
  induction k generalizing x p with
  | zero =>
    rcases p with _ | ⟨b, p⟩
    · rfl
    · exfalso
      apply hne
      exact hp.eq_of_length (by have := hp.length_le; simp [leb] at this ⊢; omega)
  | succ k ih =>
    unfold leb at hp hne
    split at hp
    · rename_i h
      rw [if_pos h] at hne
      rcases p with _ | ⟨b, p⟩
      · rfl
      · exfalso
        apply hne
        exact hp.eq_of_length (by have := hp.length_le; simp at this ⊢; omega)
    · rename_i h
      rw [if_neg h] at hne
      rcases p with _ | ⟨b, p⟩
      · rfl
      · rw [List.cons_prefix_cons] at hp
        obtain ⟨rfl, hp⟩ := hp
        have e : (UInt8.ofNat (x % 128 + 128)).toNat = x % 128 + 128 := by
          rw [UInt8.toNat_ofNat']; omega
        simp only [unleb, e]
        rw [if_neg (by omega), ih _ _ hp (by intro h'; apply hne; rw [h'])]
        rfl

theorem unleb_bound (k : Nat) (r : List UInt8) (x : Nat) (r' : List UInt8) (h : unleb k r = some (x, r')) :
    x < 128 ^ k * 256 ∧ ∃ p, r = p ++ r' ∧ 1 ≤ p.length ∧ p.length ≤ k + 1 := by
  induction k generalizing r x with
  | zero =>
    rcases r with _ | ⟨b, r⟩
    · simp [unleb] at h
    · simp only [unleb, Option.some.injEq, Prod.mk.injEq] at h
      obtain ⟨rfl, rfl⟩ := h
      exact ⟨by have := toNat_lt b; omega, [b], rfl, by simp, by simp⟩
  | succ k ih =>
    rcases r with _ | ⟨b, r⟩
    · simp [unleb] at h
    · simp only [unleb] at h
      have h1 : 1 ≤ 128 ^ k := Nat.one_le_pow _ _ (by norm_num)
      split at h
      · rename_i hb
        simp only [Option.some.injEq, Prod.mk.injEq] at h
        obtain ⟨rfl, rfl⟩ := h
        refine ⟨?_, [b], rfl, by simp, by simp⟩
        rw [pow_succ]; nlinarith
      · cases hu : unleb k r with
        | none => rw [hu] at h; simp at h
        | some q =>
          obtain ⟨y, r2⟩ := q
          rw [hu] at h
          simp only [Option.map_some, Option.some.injEq, Prod.mk.injEq] at h
          obtain ⟨rfl, rfl⟩ := h
          obtain ⟨hy, p, hp, hl1, hl2⟩ := ih r y hu
          refine ⟨?_, b :: p, by rw [hp]; rfl, by simp, by simp; omega⟩
          rw [pow_succ]
          have : b.toNat % 128 < 128 := Nat.mod_lt _ (by norm_num)
          generalize 128 ^ k = P at *
          omega

theorem unleb_short (k : Nat) (r : List UInt8) (h : k + 1 ≤ r.length) : (unleb k r).isSome := by
  induction k generalizing r with
  | zero =>
    rcases r with _ | ⟨b, r⟩
    · simp at h
    · rfl
  | succ k ih =>
    rcases r with _ | ⟨b, r⟩
    · simp at h
    · simp only [unleb]
      split
      · rfl
      · simp only [Option.isSome_map]
        exact ih r (by simpa using h)

/-- the stream reader with an accumulator; `k` further flagged groups possible after position `i` -/
def go : Nat → Nat → Nat → List UInt8 → Option (Nat × List UInt8)
  | _, _, _, [] => none
  | 0, i, acc, b :: r => some (acc ||| (b.toNat <<< (7 * i)), r)
  | k + 1, i, acc, b :: r =>
    if isHighBitSet b then go k (i + 1) (acc ||| (low7Bits b <<< (7 * i))) r
    else some (acc ||| (low7Bits b <<< (7 * i)), r)

theorem go_eq (k i acc : Nat) (r : List UInt8) (h : acc < 2 ^ (7 * i)) :
    go k i acc r = (unleb k r).map fun p => (acc + p.1 * 2 ^ (7 * i), p.2) := by
  induction k generalizing i acc r with
  | zero =>
    rcases r with _ | ⟨b, r⟩
    · rfl
    · simp only [go, unleb, or_shl h, Option.map_some]
  | succ k ih =>
    rcases r with _ | ⟨b, r⟩
    · rfl
    · simp only [go, unleb, or_shl h, high_eq, low7_eq, decide_eq_true_eq]
      have hb : b.toNat % 128 < 128 := Nat.mod_lt _ (by norm_num)
      have e : 2 ^ (7 * (i + 1)) = 128 * 2 ^ (7 * i) := by
        rw [show 7 * (i + 1) = 7 * i + 7 by ring, pow_add]; ring
      by_cases hh : b.toNat < 128
      · rw [if_neg (by omega), if_pos hh, Option.map_some, Nat.mod_eq_of_lt hh]
      · rw [if_pos (by omega), if_neg hh, ih]
        · cases unleb k r with
          | none => rfl
          | some p =>
            simp only [Option.map_some, Option.some.injEq, Prod.mk.injEq, and_true]
            rw [e]; ring
        · rw [e]; nlinarith [Nat.two_pow_pos (7 * i)]

theorem varintRead_go (r : List UInt8) : varintRead r = go 8 0 0 r := by
  have e0 : ∀ b, 0 ||| (low7Bits b <<< (7 * 0)) = low7Bits b := fun b => by simp
  rcases r with _ | ⟨b0, r⟩
  · rfl
  simp only [varintRead, readU8, Option.bind_eq_bind, Option.bind_some, go, e0]
  cases isHighBitSet b0
  · rfl
  rcases r with _ | ⟨b1, r⟩
  · rfl
  simp only [readU8, Option.bind_eq_bind, Option.bind_some, go, if_true]
  cases isHighBitSet b1
  · rfl
  rcases r with _ | ⟨b2, r⟩
  · rfl
  simp only [readU8, Option.bind_eq_bind, Option.bind_some, go, if_true]
  cases isHighBitSet b2
  · rfl
  rcases r with _ | ⟨b3, r⟩
  · rfl
  simp only [readU8, Option.bind_eq_bind, Option.bind_some, go, if_true]
  cases isHighBitSet b3
  · rfl
  rcases r with _ | ⟨b4, r⟩
  · rfl
  simp only [readU8, Option.bind_eq_bind, Option.bind_some, go, if_true]
  cases isHighBitSet b4
  · rfl
  rcases r with _ | ⟨b5, r⟩
  · rfl
  simp only [readU8, Option.bind_eq_bind, Option.bind_some, go, if_true]
  cases isHighBitSet b5
  · rfl
  rcases r with _ | ⟨b6, r⟩
  · rfl
  simp only [readU8, Option.bind_eq_bind, Option.bind_some, go, if_true]
  cases isHighBitSet b6
  · rfl
  rcases r with _ | ⟨b7, r⟩
  · rfl
  simp only [readU8, Option.bind_eq_bind, Option.bind_some, go, if_true]
  cases isHighBitSet b7
  · rfl
  rcases r with _ | ⟨b8, r⟩
  · rfl
  simp only [readU8, Option.bind_eq_bind, Option.bind_some, go, if_true]

theorem varintRead_eq (r : List UInt8) : varintRead r = unleb 8 r := by
  rw [varintRead_go, go_eq _ _ _ _ (by norm_num)]
  cases unleb 8 r with
  | none => rfl
  | some p => simp

/-- both readers agree on inputs of at least nine bytes -/
theorem varintReadSlice_eq (s : List UInt8) (hs : 9 ≤ s.length) :
    ∃ x n, varintReadSlice s = .ok (x, n) ∧ varintRead s = some (x, s.drop n) ∧ 1 ≤ n ∧ n ≤ 9 := by
  rw [varintRead_go]
  rcases s with _ | ⟨b0, _ | ⟨b1, _ | ⟨b2, _ | ⟨b3, _ | ⟨b4, _ | ⟨b5, _ | ⟨b6, _ | ⟨b7, _ | ⟨b8, r⟩⟩⟩⟩⟩⟩⟩⟩⟩ <;>
    simp only [List.length_nil, List.length_cons] at hs <;> try omega
  unfold varintReadSlice
  simp only [getB, List.getElem?_cons_zero, List.getElem?_cons_succ, M.ok_bind, go]
  cases isHighBitSet b0
  · exact ⟨_, 1, rfl, by simp, by omega⟩
  cases isHighBitSet b1
  · exact ⟨_, 2, rfl, by simp, by omega⟩
  cases isHighBitSet b2
  · exact ⟨_, 3, rfl, by simp, by omega⟩
  cases isHighBitSet b3
  · exact ⟨_, 4, rfl, by simp, by omega⟩
  cases isHighBitSet b4
  · exact ⟨_, 5, rfl, by simp, by omega⟩
  cases isHighBitSet b5
  · exact ⟨_, 6, rfl, by simp, by omega⟩
  cases isHighBitSet b6
  · exact ⟨_, 7, rfl, by simp, by omega⟩
  cases isHighBitSet b7
  · exact ⟨_, 8, rfl, by simp, by omega⟩
  exact ⟨_, 9, rfl, by simp, by omega⟩

set_option maxRecDepth 8000 in
theorem asU8_or (x : Nat) : asU8 x ||| 0x80 = UInt8.ofNat (x % 128 + 128) := by
  have : ∀ n : Fin 256, UInt8.ofNat n.val ||| 0x80 = UInt8.ofNat (n.val % 128 + 128) := by decide
  have h := this ⟨x % 256, Nat.mod_lt _ (by norm_num)⟩
  simp only at h
  have e1 : UInt8.ofNat (x % 256) = UInt8.ofNat x := by
    apply UInt8.toNat.inj; simp
  rw [e1] at h
  unfold asU8
  rw [h]
  congr 2; omega

theorem or_asU8 (x : Nat) : 0x80 ||| asU8 (x &&& 0x7F) = UInt8.ofNat (x % 128 + 128) := by
  rw [UInt8.or_comm, asU8_or, show x &&& 0x7F = x % 128 from Nat.and_two_pow_sub_one_eq_mod x 7]
  congr 2; omega

/-- the writer stores exactly the encoding at the front of the slice -/
theorem varintWrite_eq (x : Nat) (buf : List UInt8) (hb : 9 ≤ buf.length) :
    varintWrite x buf = .ok (leb 8 x ++ buf.drop (leb 8 x).length, (leb 8 x).length) := by
  rcases buf with _ | ⟨b0, _ | ⟨b1, _ | ⟨b2, _ | ⟨b3, _ | ⟨b4, _ | ⟨b5, _ | ⟨b6, _ | ⟨b7, _ | ⟨b8, r⟩⟩⟩⟩⟩⟩⟩⟩⟩ <;>
    simp only [List.length_nil, List.length_cons] at hb <;> try omega
  have hs : ∀ n, shiftBy7s x n = x / 128 ^ n := fun n => by
    unfold shiftBy7s
    rw [Nat.shiftRight_eq_div_pow, pow_mul]; norm_num
  have hc : ∀ n, nth7bChunkWithHighBit x n = UInt8.ofNat (x / 128 ^ n % 128 + 128) := fun n => by
    unfold nth7bChunkWithHighBit; rw [hs, asU8_or]
  have e56 : asU8 (x >>> 56) = UInt8.ofNat (x / 128 ^ 8) := by
    unfold asU8; rw [Nat.shiftRight_eq_div_pow]; norm_num
  have hd : ∀ n, x / 128 ^ n / 128 = x / 128 ^ (n + 1) := fun n => by
    rw [Nat.div_div_eq_div_mul, pow_succ]
  have h128 : ∀ y, y < 128 ↔ y / 128 = 0 := fun y => by omega
  have d1 : x / 128 = x / 128 ^ 1 := by norm_num
  unfold varintWrite
  rw [or_asU8, e56]
  simp only [setB, hs, hc, e56, List.length_cons, List.set_cons_zero, List.set_cons_succ, leb, asU8,
    h128, hd, d1]
  generalize x / 128 ^ 1 = q1
  generalize x / 128 ^ 2 = q2
  generalize x / 128 ^ 3 = q3
  generalize x / 128 ^ 4 = q4
  generalize x / 128 ^ 5 = q5
  generalize x / 128 ^ 6 = q6
  generalize x / 128 ^ 7 = q7
  generalize x / 128 ^ 8 = q8
  simp only [Nat.zero_lt_succ, if_true, Nat.add_lt_add_iff_right, Nat.lt_add_left_iff_pos, Nat.lt_add_one, M.ok_bind]
  by_cases h1 : q1 = 0
  · simp only [h1, if_true, if_false, M.ok_bind, M.pure_eq, List.cons_append, List.nil_append, List.length_cons, List.length_nil, List.drop_succ_cons, List.drop_zero, Nat.lt_add_left_iff_pos]; try simp [M.ok_bind]
  simp only [h1, if_false]
  by_cases h2 : q2 = 0
  · simp only [h2, if_true, if_false, M.ok_bind, M.pure_eq, List.cons_append, List.nil_append, List.length_cons, List.length_nil, List.drop_succ_cons, List.drop_zero, Nat.lt_add_left_iff_pos]; try simp [M.ok_bind]
  simp only [h2, if_false]
  by_cases h3 : q3 = 0
  · simp only [h3, if_true, if_false, M.ok_bind, M.pure_eq, List.cons_append, List.nil_append, List.length_cons, List.length_nil, List.drop_succ_cons, List.drop_zero, Nat.lt_add_left_iff_pos]; try simp [M.ok_bind]
  simp only [h3, if_false]
  by_cases h4 : q4 = 0
  · simp only [h4, if_true, if_false, M.ok_bind, M.pure_eq, List.cons_append, List.nil_append, List.length_cons, List.length_nil, List.drop_succ_cons, List.drop_zero, Nat.lt_add_left_iff_pos]; try simp [M.ok_bind]
  simp only [h4, if_false]
  by_cases h5 : q5 = 0
  · simp only [h5, if_true, if_false, M.ok_bind, M.pure_eq, List.cons_append, List.nil_append, List.length_cons, List.length_nil, List.drop_succ_cons, List.drop_zero, Nat.lt_add_left_iff_pos]; try simp [M.ok_bind]
  simp only [h5, if_false]
  by_cases h6 : q6 = 0
  · simp only [h6, if_true, if_false, M.ok_bind, M.pure_eq, List.cons_append, List.nil_append, List.length_cons, List.length_nil, List.drop_succ_cons, List.drop_zero, Nat.lt_add_left_iff_pos]; try simp [M.ok_bind]
  simp only [h6, if_false]
  by_cases h7 : q7 = 0
  · simp only [h7, if_true, if_false, M.ok_bind, M.pure_eq, List.cons_append, List.nil_append, List.length_cons, List.length_nil, List.drop_succ_cons, List.drop_zero, Nat.lt_add_left_iff_pos]; try simp [M.ok_bind]
  simp only [h7, if_false]
  by_cases h8 : q8 = 0
  · simp only [h8, if_true, if_false, M.ok_bind, M.pure_eq, List.cons_append, List.nil_append, List.length_cons, List.length_nil, List.drop_succ_cons, List.drop_zero, Nat.lt_add_left_iff_pos]; try simp [M.ok_bind]
  simp only [h8, if_false]
  simp [M.ok_bind]

/-! ### zig-zag -/

theorem zigZagEncode_nonneg {n : Int} (h0 : 0 ≤ n) (h1 : n < 2 ^ 63) : zigZagEncode n = (2 * n).toNat := by
  unfold zigZagEncode
  have e : (BitVec.ofInt 64 n).toInt = n := by
    rw [BitVec.toInt_ofInt]; exact Int.bmod_eq_of_le (by norm_num; omega) (by norm_num; omega)
  have hs : (BitVec.ofInt 64 n).sshiftRight 63 = 0#64 := by
    apply BitVec.eq_of_toInt_eq
    rw [BitVec.toInt_sshiftRight, e, Int.shiftRight_eq_div_pow]
    exact Int.ediv_eq_zero_of_lt h0 h1
  simp only [hs, BitVec.xor_zero]
  rw [BitVec.toNat_shiftLeft, BitVec.toNat_ofInt, Nat.shiftLeft_eq]
  have e3 : ((2 ^ 64 : Nat) : Int) = 18446744073709551616 := by norm_num
  have e4 : (2 ^ 63 : Int) = 9223372036854775808 := by norm_num
  have e5 : (2 ^ 64 : Nat) = 18446744073709551616 := by norm_num
  rw [e4] at h1
  rw [e3, e5]
  omega

theorem zigZagEncode_neg {n : Int} (h0 : n < 0) (h1 : -2 ^ 63 ≤ n) : zigZagEncode n = (-2 * n - 1).toNat := by
  unfold zigZagEncode
  have e : (BitVec.ofInt 64 n).toInt = n := by
    rw [BitVec.toInt_ofInt]; exact Int.bmod_eq_of_le (by norm_num; omega) (by norm_num; omega)
  have hs : (BitVec.ofInt 64 n).sshiftRight 63 = BitVec.allOnes 64 := by
    apply BitVec.eq_of_toInt_eq
    rw [BitVec.toInt_sshiftRight, e, Int.shiftRight_eq_div_pow]
    have : (BitVec.allOnes 64).toInt = -1 := by decide
    rw [this]
    have e4 : ((2 ^ 63 : Nat) : Int) = 9223372036854775808 := by norm_num
    have e5 : (2 ^ 63 : Int) = 9223372036854775808 := by norm_num
    rw [e5] at h1
    rw [e4]; omega
  simp only [hs, BitVec.xor_allOnes]
  rw [BitVec.toNat_not, BitVec.toNat_shiftLeft, BitVec.toNat_ofInt, Nat.shiftLeft_eq]
  have e3 : ((2 ^ 64 : Nat) : Int) = 18446744073709551616 := by norm_num
  have e4 : (2 ^ 63 : Int) = 9223372036854775808 := by norm_num
  have e5 : (2 ^ 64 : Nat) = 18446744073709551616 := by norm_num
  rw [e4] at h1
  rw [e3, e5]
  omega

theorem zigZagDecode_eq {u : Nat} (hu : u < 2 ^ 64) :
    zigZagDecode u = if u % 2 = 0 then ((u / 2 : Nat) : Int) else -((u / 2 : Nat) : Int) - 1 := by
  unfold zigZagDecode
  have e5 : (2 ^ 64 : Nat) = 18446744073709551616 := by norm_num
  have hsh : (BitVec.ofNat 64 u >>> 1).toNat = u / 2 := by
    rw [BitVec.toNat_ushiftRight, BitVec.toNat_ofNat, Nat.shiftRight_eq_div_pow, Nat.mod_eq_of_lt hu]
  have hand : BitVec.ofNat 64 u &&& 1#64 = BitVec.ofNat 64 (u % 2) := by
    apply BitVec.eq_of_toNat_eq
    rw [BitVec.toNat_and, BitVec.toNat_ofNat, BitVec.toNat_ofNat, BitVec.toNat_ofNat,
      Nat.mod_eq_of_lt hu, Nat.mod_eq_of_lt (by norm_num : 1 < 2 ^ 64), Nat.and_one_is_mod]
    rw [e5]; omega
  simp only [hand]
  split
  · rename_i h
    rw [h]
    have : -(BitVec.ofNat 64 0) = 0#64 := by decide
    rw [this, BitVec.xor_zero, BitVec.toInt_eq_toNat_of_lt (by rw [hsh, e5]; rw [e5] at hu; omega), hsh]
  · rename_i h
    rw [show u % 2 = 1 by omega]
    have : -(BitVec.ofNat 64 1) = BitVec.allOnes 64 := by decide
    rw [this, BitVec.xor_allOnes, BitVec.toInt_not, hsh]
    have e3 : ((2 ^ 64 : Nat) : Int) = 18446744073709551616 := by norm_num
    have e6 : (2 ^ 64 : Int) = 18446744073709551616 := by norm_num
    rw [e5] at hu
    rw [e6, e5, Int.bmod_def]
    split <;> omega

theorem zigZagEncode_lt {n : Int} (_ : -2 ^ 63 ≤ n) (_ : n < 2 ^ 63) : zigZagEncode n < 2 ^ 64 := by
  unfold zigZagEncode
  exact BitVec.isLt _

theorem zigZag_roundtrip {n : Int} (h0 : -2 ^ 63 ≤ n) (h1 : n < 2 ^ 63) :
    zigZagDecode (zigZagEncode n) = n := by
  rw [zigZagDecode_eq (zigZagEncode_lt h0 h1)]
  by_cases h : 0 ≤ n
  · rw [zigZagEncode_nonneg h h1]; split <;> omega
  · rw [zigZagEncode_neg (by omega) h0]; split <;> omega

theorem zigZagDecode_range {u : Nat} (hu : u < 2 ^ 64) :
    -2 ^ 63 ≤ zigZagDecode u ∧ zigZagDecode u < 2 ^ 63 := by
  have e5 : (2 ^ 64 : Nat) = 18446744073709551616 := by norm_num
  have e6 : (2 ^ 63 : Int) = 9223372036854775808 := by norm_num
  rw [zigZagDecode_eq hu]
  rw [e5] at hu
  rw [e6]
  split <;> omega

theorem zigZag_roundtrip' {u : Nat} (hu : u < 2 ^ 64) : zigZagEncode (zigZagDecode u) = u := by
  obtain ⟨h0, h1⟩ := zigZagDecode_range hu
  by_cases h : 0 ≤ zigZagDecode u
  · rw [zigZagEncode_nonneg h h1]
    rw [zigZagDecode_eq hu] at h ⊢
    split at h <;> rename_i hh <;> simp only [hh, if_true, if_false] <;> omega
  · rw [zigZagEncode_neg (by omega) h0]
    rw [zigZagDecode_eq hu] at h ⊢
    split at h <;> rename_i hh <;> simp only [hh, if_true, if_false] <;> omega

end Hdr.V2
