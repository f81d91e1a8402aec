import Mathlib.Tactic.IntervalCases
import Verif.Model.VarintRange
import Verif.Proofs.Varint

/-!
# C86: how many bytes a number takes
-/

namespace Hdr.V2

/-- what `varint_write` says it wrote, into a buffer that is long enough -/
def Takes (x n : Nat) : Prop := ∀ buf : List UInt8, 9 ≤ buf.length → ∃ buf', varintWrite x buf = .ok (buf', n)

theorem takes_iff {x n : Nat} : Takes x n ↔ (leb 8 x).length = n := by
  constructor
  · intro h
    obtain ⟨b, e⟩ := h (List.replicate 9 0) (by simp)
    rw [varintWrite_eq x _ (by simp)] at e
    exact (Prod.ext_iff.mp (Except.ok.inj e)).2
  · intro h buf hb
    exact ⟨_, h ▸ varintWrite_eq x buf hb⟩

theorem leb_len_le {k x n : Nat} (hn : n < k + 1) : (leb k x).length ≤ n + 1 ↔ x < 128 ^ (n + 1) ∨ n = k := by
  induction k generalizing x n with
  | zero => simp [leb]; omega
  | succ k ih =>
    unfold leb
    by_cases c : x < 128
    · rw [if_pos c]
      have : 128 ≤ 128 ^ (n + 1) := by rw [pow_succ]; exact Nat.le_mul_of_pos_left _ (by positivity)
      simp only [List.length_singleton]
      omega
    · rw [if_neg c, List.length_cons]
      cases n with
      | zero =>
        have := (leb_length k (x / 128)).1
        simp only [Nat.zero_add, pow_one]; omega
      | succ n =>
        have h := ih (x := x / 128) (n := n) (by omega)
        rw [Nat.div_lt_iff_lt_mul (by norm_num), ← pow_succ] at h
        omega

/-- the largest number of `n` bytes -/
theorem largest_eq {n : Nat} (h1 : 1 ≤ n) (h9 : n ≤ 9) :
    largestInBytes n = .ok (if n = 9 then U64MAX else 128 ^ n - 1) := by
  interval_cases n <;> decide +kernel

theorem smallest_eq {n : Nat} (h1 : 1 ≤ n) (h9 : n ≤ 9) :
    smallestInBytes n = .ok (if n = 1 then 0 else 128 ^ (n - 1)) := by
  interval_cases n <;> decide +kernel

/-- C86: the helper behind both: the number of `c + 1` groups of seven one-bits, for the eight groups `0` to `7`; a higher group
number is a panic. -/
theorem C86_chunk (c : Nat) : largestIn7BitChunk c = if c ≤ 7 then .ok (128 ^ (c + 1) - 1) else .error .assert := by
  by_cases hc : c ≤ 7
  · rw [if_pos hc]
    interval_cases c <;> decide +kernel
  · rw [if_neg hc]
    obtain ⟨d, rfl⟩ : ∃ d, c = d + 1 := ⟨c - 1, by omega⟩
    unfold largestIn7BitChunk
    rw [decide_eq_false hc]
    rfl

/-- C86: for the lengths from 1 to 9, the two functions give the ends of the range of the numbers which the writer encodes in
exactly that many bytes. -/
theorem C86_length {n x : Nat} (h1 : 1 ≤ n) (h9 : n ≤ 9) (hx : x ≤ U64MAX) :
    ∃ lo hi, smallestInBytes n = .ok lo ∧ largestInBytes n = .ok hi ∧ hi ≤ U64MAX ∧ lo ≤ hi ∧
      (Takes x n ↔ lo ≤ x ∧ x ≤ hi) := by
  refine ⟨_, _, smallest_eq h1 h9, largest_eq h1 h9, ?_, ?_, ?_⟩
  · clear hx; interval_cases n <;> decide
  · clear hx; interval_cases n <;> decide
  · rw [takes_iff]
    have hU : U64MAX = 18446744073709551615 := rfl
    have a : ∀ m, m < 9 → ((leb 8 x).length ≤ m + 1 ↔ x < 128 ^ (m + 1) ∨ m = 8) := fun m hm => leb_len_le (by omega)
    have b := leb_length 8 x
    have a1 := a (n - 1) (by omega)
    have e : n - 1 + 1 = n := by omega
    rw [e] at a1
    by_cases c : n = 1
    · subst c
      simp only [if_true, Nat.pow_one] at a1 ⊢
      norm_num
      omega
    · have a2 := a (n - 2) (by omega)
      have e : n - 2 + 1 = n - 1 := by omega
      rw [e] at a2
      rw [if_neg c]
      by_cases c9 : n = 9
      · subst c9
        norm_num at *
        omega
      · rw [if_neg c9]
        have : 0 < 128 ^ n := by positivity
        generalize 128 ^ n = P at *
        generalize 128 ^ (n - 1) = Q at *
        omega

/-- C86: any other length is refused by an assertion. -/
theorem C86_refused {n : Nat} (h : n = 0 ∨ 9 < n) :
    smallestInBytes n = .error .assert ∧ largestInBytes n = .error .assert := by
  have : (decide (n ≤ 9) && decide (n ≥ 1)) = false := by
    rcases h with h | h
    · subst h; rfl
    · simp [Nat.not_le.mpr h]
  constructor
  · unfold smallestInBytes; rw [this]; rfl
  · unfold largestInBytes; rw [this]; rfl

/-- the nine ranges -/
theorem ranges_eq : ranges = .ok ((List.range 9).map fun k =>
    (if k = 0 then 0 else 128 ^ k, if k = 8 then U64MAX else 128 ^ (k + 1))) := by decide +kernel

theorem generate_eq {k x : Nat} (hk : k < 9) : generate k x = .ok
    (if (if k = 0 then 0 else 128 ^ k) ≤ x ∧ x < (if k = 8 then U64MAX else 128 ^ (k + 1)) then some x else none) := by
  unfold generate
  rw [ranges_eq]
  simp only [M.ok_bind, List.getElem?_map, List.getElem?_range hk, Option.map_some]
  rfl

/-- C86: what the generator can produce. Making it never panics; picking length `k + 1` it yields exactly the numbers of that
encoded length, except the largest of all, `u64::MAX`, which is never produced. -/
theorem C86_generated {k x : Nat} (hk : k < 9) (hx : x ≤ U64MAX) :
    ∃ r, generate k x = .ok r ∧ (r = some x ↔ Takes x (k + 1) ∧ x ≠ U64MAX) ∧ (r = none ∨ r = some x) := by
  refine ⟨_, generate_eq hk, ?_, ?_⟩
  · obtain ⟨lo, hi, h1, h2, h3, h4, h5⟩ := C86_length (n := k + 1) (x := x) (by omega) (by omega) hx
    rw [smallest_eq (by omega) (by omega)] at h1
    rw [largest_eq (by omega) (by omega)] at h2
    rw [h5, ← Except.ok.inj h1, ← Except.ok.inj h2]
    clear h1 h2 h5 h3 h4
    simp only [Nat.add_eq_right, Nat.add_sub_cancel, ite_eq_left_iff, reduceCtorEq, imp_false, not_not]
    have hU : U64MAX = 18446744073709551615 := rfl
    rw [hU] at *
    interval_cases k <;> norm_num <;> omega
  · generalize (if k = 0 then 0 else 128 ^ k) = a
    generalize (if k = 8 then U64MAX else 128 ^ (k + 1)) = b
    by_cases c : a ≤ x ∧ x < b
    · exact .inr (if_pos c)
    · exact .inl (if_neg c)

/-- so every `u64` but the largest can come out, for exactly one choice of the length -/
theorem C86_all {x : Nat} (hx : x < U64MAX) : ∃ k < 9, generate k x = .ok (some x) ∧
    ∀ j < 9, generate j x = .ok (some x) → j = k := by
  have hl := leb_length 8 x
  have ht : Takes x ((leb 8 x).length - 1 + 1) := takes_iff.mpr (by omega)
  refine ⟨(leb 8 x).length - 1, by omega, ?_, ?_⟩
  · obtain ⟨r, h1, h2, -⟩ := C86_generated (k := (leb 8 x).length - 1) (x := x) (by omega) (by omega)
    rw [h1, h2.mpr ⟨ht, by omega⟩]
  · intro j hj e
    obtain ⟨r, h1, h2, -⟩ := C86_generated (k := j) (x := x) hj (by omega)
    rw [h1] at e
    have := takes_iff.mp (h2.mp (Except.ok.inj e)).1
    omega

/-- the one number the serialization tests that use the generator never see -/
theorem C86_never_max (k : Nat) : generate k U64MAX ≠ .ok (some U64MAX) := by
  by_cases hk : k < 9
  · obtain ⟨r, h1, h2, -⟩ := C86_generated (x := U64MAX) hk le_rfl
    intro e
    rw [h1] at e
    exact (h2.mp (Except.ok.inj e)).2 rfl
  · unfold generate
    rw [ranges_eq]
    simp only [M.ok_bind, List.getElem?_map]
    rw [List.getElem?_eq_none (by simp; omega)]
    intro e; cases e

example : smallestInBytes 3 = .ok 16384 ∧ largestInBytes 3 = .ok 2097151 ∧ generate 2 20000 = .ok (some 20000) ∧
    generate 1 20000 = .ok none ∧ generate 8 (U64MAX - 1) = .ok (some (U64MAX - 1)) := by decide +kernel

end Hdr.V2
