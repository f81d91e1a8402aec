import Verif.Proofs.LogParse
import Verif.Spec.Demo
import Mathlib.Data.Rat.Floor
import Mathlib.Tactic.Linarith

/-!
# Concrete inhabitants for the interval log
-/

namespace Hdr.Log

open Hdr

/-- `{:.3}` with halves rounded up -/
def Fmt.halfUp : Fmt where
  ms x := ⌊x * 1000 + 1 / 2⌋.toNat
  near x hx := by
    have h0 : 0 ≤ ⌊x * 1000 + 1 / 2⌋ := Int.floor_nonneg.mpr (by linarith)
    have h1 := Int.floor_le (x * 1000 + 1 / 2)
    have h2 := Int.lt_floor_add_one (x * 1000 + 1 / 2)
    have e : ((⌊x * 1000 + 1 / 2⌋.toNat : ℕ) : ℚ) = (⌊x * 1000 + 1 / 2⌋ : ℤ) := by
      rw [← Int.cast_natCast, Int.toNat_of_nonneg h0]
    rw [e, abs_le]
    constructor <;> linarith

/-- decimal numbers with optional fraction, after the text `sign` -/
def decimalDigits (sign y : Bytes) : Option (Bytes × Bytes) :=
  match takeWhile1 isDigit y with
  | none => none
  | some (d, 46 :: r) => some (sign ++ d ++ 46 :: r.takeWhile isDigit, r.dropWhile isDigit)
  | some (d, r) => some (sign ++ d, r)

/-- decimal numbers with optional sign and fraction -/
def decimalNumber (x : Bytes) : Option (Bytes × Bytes) :=
  if x.head? = some 45 then decimalDigits [45] x.tail else decimalDigits [] x

/-- a recogniser of decimal numbers; a comma ends the number -/
def Dbl.decimal : Dbl where
  run i := match takeUntil 44 i with
    | some (x, r) => (decimalNumber x).map fun p => (p.1, p.2 ++ r)
    | none => decimalNumber i

theorem digits_no_comma {d : Bytes} (h : ∀ b ∈ d, isDigit b = true) : 44 ∉ d := fun hc => by
  have := h 44 hc; revert this; decide

theorem decimalNumber_pre {x m r : Bytes} (h : decimalNumber x = some (m, r)) : x = m ++ r ∧ 44 ∉ m := by
  obtain ⟨sign, y, hs, rfl, h'⟩ : ∃ sign y, (sign = [45] ∨ sign = []) ∧ x = sign ++ y ∧ decimalDigits sign y = some (m, r) := by
    unfold decimalNumber at h
    split at h
    · rename_i hx
      cases x with
      | nil => cases hx
      | cons c x => cases hx; exact ⟨[45], x, Or.inl rfl, rfl, h⟩
    · exact ⟨[], x, Or.inr rfl, rfl, h⟩
  clear h
  unfold decimalDigits at h'
  have hs2 : 44 ∉ sign := by rcases hs with rfl | rfl <;> decide
  split at h'
  · cases h'
  · rename_i d r' hd
    obtain ⟨-, h2, rfl, -⟩ := takeWhile1_some.mp hd
    cases h'
    have := digits_no_comma h2
    have h5 := digits_no_comma (d := r'.takeWhile isDigit) (fun b hb => List.mem_takeWhile_imp hb)
    refine ⟨?_, by simp [hs2, this, h5]⟩
    simp only [List.append_assoc, List.cons_append]
    rw [List.takeWhile_append_dropWhile]
  · rename_i d r' _ hd
    obtain ⟨-, h2, rfl, -⟩ := takeWhile1_some.mp hd
    cases h'
    have := digits_no_comma h2
    exact ⟨by simp, by simp [hs2, this]⟩

theorem decimalNumber_fixed {s : Str} (h : Fixed3 s) : decimalNumber (Str.bytes s) = some (Str.bytes s, []) := by
  obtain ⟨sign, a, b, rfl, hs, ha, hda, hdb, hb⟩ := h
  have e1 : takeWhile1 isDigit (Str.bytes a ++ 46 :: Str.bytes b) = some (Str.bytes a, 46 :: Str.bytes b) := by
    refine takeWhile1_some.mpr ⟨?_, hda.isDigit, rfl, ?_⟩
    · intro hh
      have := digits_bytes_length hda.ascii
      rw [hh] at this
      exact ha (List.length_eq_zero_iff.mp this.symm)
    · intro x r' hx; cases hx; decide
  have e2 : (Str.bytes b).takeWhile isDigit = Str.bytes b := List.takeWhile_eq_self_iff.mpr hdb.isDigit
  have e3 : (Str.bytes b).dropWhile isDigit = [] := List.dropWhile_eq_nil_iff.mpr hdb.isDigit
  have e4 : Str.bytes (sign ++ a ++ '.' :: b) = Str.bytes sign ++ (Str.bytes a ++ 46 :: Str.bytes b) := by
    rw [bytes_append, bytes_append, bytes_cons, List.append_assoc]; rfl
  rw [e4]
  rcases hs with rfl | rfl
  · have e0 : Str.bytes [] = [] := rfl
    rw [e0, List.nil_append]
    unfold decimalNumber
    cases ha' : Str.bytes a with
    | nil =>
      have := digits_bytes_length hda.ascii
      rw [ha'] at this
      exact absurd (List.length_eq_zero_iff.mp this.symm) ha
    | cons c t =>
      have hc : c ≠ 45 := by
        rintro rfl
        have := hda.isDigit 45 (by rw [ha']; simp)
        revert this; decide
      rw [if_neg (by simpa using hc), ← ha']
      unfold decimalDigits
      rw [e1]
      simp [e2, e3]
  · have e0 : Str.bytes ['-'] = [45] := by decide
    rw [e0]
    unfold decimalNumber
    simp only [List.singleton_append, List.tail_cons, List.head?_cons, if_true]
    unfold decimalDigits
    rw [e1]
    simp [e2, e3]

theorem Dbl.decimal_lawful : Dbl.decimal.Lawful where
  pre i m r h := by
    unfold Dbl.decimal at h
    simp only at h
    split at h
    · rename_i x r' hx
      obtain ⟨h1, r2, rfl, rfl⟩ := takeUntil_some.mp hx
      rw [Option.map_eq_some_iff] at h
      obtain ⟨⟨m', q⟩, h3, h4⟩ := h
      cases h4
      obtain ⟨rfl, h5⟩ := decimalNumber_pre h3
      exact ⟨by simp, h5⟩
    · exact decimalNumber_pre h
  upto l r hl := by
    unfold Dbl.decimal
    simp only
    rw [takeUntil_some.mpr ⟨hl, r, rfl, rfl⟩, takeUntil_some.mpr ⟨hl, [], rfl, rfl⟩]
    simp only
    cases decimalNumber l <;> simp
  fixed s hs := by
    unfold Dbl.decimal
    simp only
    have h := decimalNumber_fixed hs
    rw [takeUntil_some.mpr ⟨(decimalNumber_pre h).2, [], rfl, rfl⟩]
    simp only
    rw [h]
    rfl

end Hdr.Log
