import Verif.Spec.Log
import Mathlib.Tactic.Ring
import Mathlib.Tactic.Linarith

/-!
# Text: UTF-8, decimal numbers
-/

namespace Hdr.Log

open Hdr

@[simp] theorem bytes_nil : Str.bytes [] = [] := rfl
theorem bytes_append (s t : Str) : Str.bytes (s ++ t) = Str.bytes s ++ Str.bytes t := by simp [Str.bytes]
theorem bytes_cons (c : Char) (s : Str) : Str.bytes (c :: s) = String.utf8EncodeChar c ++ Str.bytes s := by simp [Str.bytes]

theorem bytes_toByteArray (s : Str) : (Str.bytes s).toByteArray = s.utf8Encode := by
  unfold Str.bytes List.utf8Encode; rfl

theorem fromUtf8_bytes (s : Str) : fromUtf8 (Str.bytes s) = some s := by
  unfold fromUtf8; rw [bytes_toByteArray]; simp

theorem bytes_of_fromUtf8 {b : Bytes} {s : Str} (h : fromUtf8 b = some s) : Str.bytes s = b := by
  unfold fromUtf8 at h
  rw [Option.map_eq_some_iff] at h
  obtain ⟨a, ha, rfl⟩ := h
  have := ByteArray.utf8Encode_get_utf8Decode? (b := b.toByteArray) (h := by rw [ha]; rfl)
  rw [← bytes_toByteArray] at this
  simp only [ha, Option.get_some] at this
  have h2 := congrArg (fun x : ByteArray => x.data.toList) this
  simpa using h2

theorem encode_ascii {c : Char} (h : c.toNat < 128) : String.utf8EncodeChar c = [UInt8.ofNat c.toNat] := by
  have h : c.val.toNat < 128 := h
  unfold String.utf8EncodeChar
  rw [if_pos (by omega)]
  rfl

theorem ofNat_ge {n : Nat} (h : 128 ≤ n) (h2 : n < 256) : 128 ≤ (UInt8.ofNat n).toNat := by
  rw [UInt8.toNat_ofNat']; omega

theorem encode_high {c : Char} (h : 128 ≤ c.toNat) : ∀ b ∈ String.utf8EncodeChar c, 128 ≤ b.toNat := by
  have h : 128 ≤ c.val.toNat := h
  unfold String.utf8EncodeChar
  rw [if_neg (by omega)]
  intro b hb
  split at hb
  · simp only [List.mem_cons, List.not_mem_nil, or_false] at hb
    rcases hb with rfl | rfl <;> exact ofNat_ge (by omega) (by omega)
  · split at hb
    · simp only [List.mem_cons, List.not_mem_nil, or_false] at hb
      rcases hb with rfl | rfl | rfl <;> exact ofNat_ge (by omega) (by omega)
    · simp only [List.mem_cons, List.not_mem_nil, or_false] at hb
      rcases hb with rfl | rfl | rfl | rfl <;> exact ofNat_ge (by omega) (by omega)

/-- an ASCII character occurs in a string iff its byte occurs in the encoding -/
theorem mem_bytes {c : Char} (hc : c.toNat < 128) (s : Str) : UInt8.ofNat c.toNat ∈ Str.bytes s ↔ c ∈ s := by
  unfold Str.bytes
  rw [List.mem_flatMap]
  constructor
  · rintro ⟨d, hd, hb⟩
    by_cases h : d.toNat < 128
    · rw [encode_ascii h, List.mem_singleton] at hb
      have := congrArg UInt8.toNat hb
      rw [UInt8.toNat_ofNat', UInt8.toNat_ofNat'] at this
      have e : c.toNat = d.toNat := by omega
      rw [Char.toNat_inj.mp e]; exact hd
    · have := encode_high (by omega) _ hb
      rw [UInt8.toNat_ofNat'] at this
      omega
  · intro h
    exact ⟨c, h, by rw [encode_ascii hc]; simp⟩

theorem digit_iff {c : Char} : ('0' ≤ c ∧ c ≤ '9') ↔ (48 ≤ c.toNat ∧ c.toNat ≤ 57) := by
  constructor
  · rintro ⟨h1, h2⟩; exact ⟨h1, h2⟩
  · rintro ⟨h1, h2⟩; exact ⟨h1, h2⟩

theorem isDigit_iff {b : UInt8} : isDigit b = true ↔ 48 ≤ b.toNat ∧ b.toNat ≤ 57 := by
  unfold isDigit
  rw [Bool.and_eq_true, decide_eq_true_iff, decide_eq_true_iff]
  exact Iff.rfl

theorem digits_bytes_length {s : Str} (h : ∀ c ∈ s, c.toNat < 128) : (Str.bytes s).length = s.length := by
  induction s with
  | nil => rfl
  | cons c s ih =>
    rw [bytes_cons, encode_ascii (h c (by simp)), List.length_append, ih fun d hd => h d (by simp [hd])]
    simp; omega

theorem Digits.ascii {s : Str} (h : Digits s) : ∀ c ∈ s, c.toNat < 128 := fun c hc => by
  have := digit_iff.mp (h c hc); omega

/-- digit bytes are digit characters -/
theorem digits_of_bytes {d : Bytes} {s : Str} (h : fromUtf8 d = some s) (hd : ∀ b ∈ d, isDigit b = true) : Digits s := by
  have hb := bytes_of_fromUtf8 h
  intro c hc
  subst hb
  rw [digit_iff]
  by_cases ha : c.toNat < 128
  · have := isDigit_iff.mp (hd _ ((mem_bytes ha s).mpr hc))
    rw [UInt8.toNat_ofNat'] at this
    omega
  · exfalso
    have hne : String.utf8EncodeChar c ≠ [] := String.utf8EncodeChar_ne_nil
    obtain ⟨b, l, e⟩ := List.exists_cons_of_ne_nil hne
    have h1 := encode_high (c := c) (by omega) b (by rw [e]; simp)
    have h2 : b ∈ Str.bytes s := by
      unfold Str.bytes; rw [List.mem_flatMap]; exact ⟨c, hc, by rw [e]; simp⟩
    have := isDigit_iff.mp (hd _ h2)
    omega

theorem Digits.isDigit {s : Str} (h : Digits s) : ∀ b ∈ Str.bytes s, isDigit b = true := by
  intro b hb
  unfold Str.bytes at hb
  rw [List.mem_flatMap] at hb
  obtain ⟨c, hc, hb⟩ := hb
  have hd := digit_iff.mp (h c hc)
  rw [encode_ascii (by omega), List.mem_singleton] at hb
  rw [isDigit_iff, hb, UInt8.toNat_ofNat']
  omega

/-- bytes that are digits decode -/
theorem fromUtf8_digits {d : Bytes} (hd : ∀ b ∈ d, isDigit b = true) : ∃ s, fromUtf8 d = some s := by
  refine ⟨d.map fun b => Char.ofNat b.toNat, ?_⟩
  have : Str.bytes (d.map fun b => Char.ofNat b.toNat) = d := by
    induction d with
    | nil => rfl
    | cons b d ih =>
      have hb := isDigit_iff.mp (hd b (by simp))
      have e : (Char.ofNat b.toNat).toNat = b.toNat := by
        have hv : b.toNat.isValidChar := Or.inl (by omega)
        unfold Char.ofNat
        rw [dif_pos hv]
        rfl
      rw [List.map_cons, bytes_cons, encode_ascii (by rw [e]; omega), ih fun b hb => hd b (by simp [hb]), e]
      simp
  rw [← this, fromUtf8_bytes, this]

/-! ### numbers -/

theorem decVal_append (s t : Str) : decVal (s ++ t) = decVal s * 10 ^ t.length + decVal t := by
  induction t using List.reverseRecOn with
  | nil => simp [decVal]
  | append_singleton t c ih =>
    rw [← List.append_assoc]
    have step : ∀ u : Str, decVal (u ++ [c]) = decVal u * 10 + (c.toNat - 48) := by
      intro u; simp [decVal, List.foldl_append]
    rw [step, step, ih, List.length_append, List.length_singleton, pow_succ]
    ring

theorem decVal_lt {s : Str} (h : Digits s) : decVal s < 10 ^ s.length := by
  induction s using List.reverseRecOn with
  | nil => simp [decVal]
  | append_singleton s c ih =>
    have h1 := ih fun d hd => h d (by simp [hd])
    have h2 := digit_iff.mp (h c (by simp))
    have : decVal [c] = c.toNat - 48 := by simp [decVal]
    rw [decVal_append, this, List.length_append, List.length_singleton, pow_one, pow_succ]
    omega

theorem foldl_ge (s : Str) : ∀ a, a ≤ s.foldl (fun a c => a * 10 + (c.toNat - 48)) a := by
  induction s with
  | nil => intro a; exact le_rfl
  | cons c s ih => intro a; rw [List.foldl_cons]; exact le_trans (by omega) (ih _)

theorem digitsLoop_eq {max : Nat} {s : Str} (h : Digits s) : ∀ {acc : Nat}, acc ≤ max →
    digitsLoop max s acc = if s.foldl (fun a c => a * 10 + (c.toNat - 48)) acc ≤ max
      then some (s.foldl (fun a c => a * 10 + (c.toNat - 48)) acc) else none := by
  induction s with
  | nil => intro acc ha; simp [digitsLoop, ha]
  | cons c s ih =>
    intro acc ha
    have hd := h c (by simp)
    have hge := foldl_ge s (acc * 10 + (c.toNat - 48))
    unfold digitsLoop digit?
    rw [if_pos hd, List.foldl_cons]
    simp only
    by_cases h1 : max < acc * 10
    · rw [if_pos h1, if_neg (by omega)]
    · rw [if_neg h1]
      by_cases h2 : max < acc * 10 + (c.toNat - 48)
      · rw [if_pos h2, if_neg (by omega)]
      · rw [if_neg h2]
        exact ih (fun d hd => h d (by simp [hd])) (by omega)

theorem digitsLoop_some {max : Nat} {s : Str} : ∀ {acc n : Nat}, digitsLoop max s acc = some n → Digits s := by
  induction s with
  | nil => intro _ _ _ c hc; cases hc
  | cons c s ih =>
    intro acc n h
    unfold digitsLoop digit? at h
    split at h
    · cases h
    · rename_i d hd
      split at hd
      · rename_i hc
        split at h
        · cases h
        · split at h
          · cases h
          · intro e he
            rcases List.mem_cons.mp he with rfl | he
            · exact hc
            · exact ih h e he
      · cases hd

theorem plus_not_digit : ¬ ('0' ≤ '+' ∧ '+' ≤ '9') := by decide

/-- a digit string parses to its value if that fits -/
theorem parseUnsigned_digits {max : Nat} {s : Str} (h : Digits s) (hne : s ≠ []) :
    parseUnsigned max s = if decVal s ≤ max then some (decVal s) else none := by
  unfold parseUnsigned
  split
  · exact absurd rfl hne
  · exact absurd (h '+' (by simp)) plus_not_digit
  · exact absurd (h '+' (by simp)) plus_not_digit
  · exact digitsLoop_eq h (Nat.zero_le _)

/-- what parses is a non-empty string of digits after an optional plus sign -/
theorem parseUnsigned_some {max : Nat} {s : Str} {n : Nat} (h : parseUnsigned max s = some n) :
    ∃ c t, s = c :: t ∧ (c = '+' ∨ '0' ≤ c ∧ c ≤ '9') ∧ Digits t := by
  unfold parseUnsigned at h
  split at h
  · cases h
  · cases h
  · rename_i t _
    exact ⟨_, t, rfl, Or.inl rfl, digitsLoop_some h⟩
  · rename_i h0 _ _
    have hd := digitsLoop_some h
    cases s with
    | nil => exact absurd rfl h0
    | cons c t => exact ⟨c, t, rfl, Or.inr (hd c (by simp)), fun e he => hd e (by simp [he])⟩

/-! ### writing numbers -/

theorem toNat_ofNat_digit {n : Nat} (h : n < 10) : (Char.ofNat (48 + n)).toNat = 48 + n := by
  have hv : (48 + n).isValidChar := Or.inl (by omega)
  unfold Char.ofNat
  rw [dif_pos hv]
  show ((Char.ofNatAux (48 + n) hv).val).toNat = _
  simp only [Char.ofNatAux]
  rfl

theorem digit_char {n : Nat} (h : n < 10) : '0' ≤ Char.ofNat (48 + n) ∧ Char.ofNat (48 + n) ≤ '9' := by
  rw [digit_iff, toNat_ofNat_digit h]; omega

theorem decimalLoop_spec (k : Nat) : ∀ n < k, Digits (decimalLoop k n) ∧ decimalLoop k n ≠ [] ∧ decVal (decimalLoop k n) = n := by
  induction k with
  | zero => intro n hn; omega
  | succ k ih =>
    intro n hn
    unfold decimalLoop
    split
    · rename_i h
      refine ⟨?_, by simp, ?_⟩
      · intro c hc; rw [List.mem_singleton] at hc; rw [hc]; exact digit_char h
      · simp [decVal, toNat_ofNat_digit h]
    · rename_i h
      obtain ⟨h1, h2, h3⟩ := ih (n / 10) (by omega)
      refine ⟨?_, by simp, ?_⟩
      · intro c hc
        rcases List.mem_append.mp hc with hc | hc
        · exact h1 c hc
        · rw [List.mem_singleton] at hc; rw [hc]; exact digit_char (by omega)
      · rw [decVal_append, h3]
        simp [decVal, toNat_ofNat_digit (show n % 10 < 10 by omega)]
        omega

theorem decimal_spec (n : Nat) : Digits (decimal n) ∧ decimal n ≠ [] ∧ decVal (decimal n) = n :=
  decimalLoop_spec _ n (by omega)

theorem pad3_spec {n : Nat} (h : n < 1000) : Digits (pad3 n) ∧ (pad3 n).length = 3 ∧ decVal (pad3 n) = n := by
  refine ⟨?_, rfl, ?_⟩
  · intro c hc
    simp only [pad3, List.mem_cons, List.not_mem_nil, or_false] at hc
    rcases hc with rfl | rfl | rfl <;> exact digit_char (by omega)
  · simp only [pad3, decVal, List.foldl_cons, List.foldl_nil]
    rw [toNat_ofNat_digit (by omega), toNat_ofNat_digit (by omega), toNat_ofNat_digit (by omega)]
    omega

end Hdr.Log
