import Verif.Proofs.LogText
import Verif.Proofs.Layout

/-!
# What the parsers accept
-/

namespace Hdr.Log

open Hdr

/-! ### combinators -/

theorem tagP_some {t i r : Bytes} : tagP t i = some r ↔ i = t ++ r := by
  induction t generalizing i with
  | nil => simp [tagP]
  | cons a t ih =>
    cases i with
    | nil => simp [tagP]
    | cons b i =>
      unfold tagP
      split
      · rename_i h; subst h; rw [ih]; simp
      · rename_i h; simp [Ne.symm h]

theorem takeUntil_some {c : UInt8} {i x r : Bytes} :
    takeUntil c i = some (x, r) ↔ c ∉ x ∧ ∃ r', r = c :: r' ∧ i = x ++ c :: r' := by
  induction i generalizing x with
  | nil => simp [takeUntil]
  | cons b i ih =>
    unfold takeUntil
    split
    · rename_i h
      subst h
      constructor
      · intro h; cases h; exact ⟨by simp, i, rfl, rfl⟩
      · rintro ⟨h1, r', rfl, h2⟩
        cases x with
        | nil => simp at h2; subst h2; rfl
        | cons d x => simp at h2 h1; exact absurd h2.1 h1.1
    · rename_i h
      constructor
      · intro h1
        split at h1
        · rename_i y s e
          cases h1
          obtain ⟨h2, r', h3, h4⟩ := ih.mp e
          refine ⟨by simp [h2, Ne.symm h], r', h3, by rw [h4]; rfl⟩
        · cases h1
      · rintro ⟨h1, r', rfl, h2⟩
        cases x with
        | nil => simp at h2; exact absurd h2.1 h
        | cons d x =>
          simp at h2 h1
          obtain ⟨rfl, h2⟩ := h2
          rw [ih.mpr ⟨h1.2, r', rfl, h2⟩]

theorem skipLine_some {i r : Bytes} : skipLine i = some r ↔ ∃ t, 10 ∉ t ∧ i = t ++ 10 :: r := by
  unfold skipLine
  rw [Option.bind_eq_bind, Option.bind_eq_some_iff]
  constructor
  · rintro ⟨⟨x, y⟩, h1, h2⟩
    obtain ⟨h3, r', rfl, h4⟩ := takeUntil_some.mp h1
    simp only [take1, Option.some.injEq] at h2
    subst h2
    exact ⟨x, h3, h4⟩
  · rintro ⟨t, h1, h2⟩
    exact ⟨(t, 10 :: r), takeUntil_some.mpr ⟨h1, r, rfl, h2⟩, rfl⟩

theorem takeWhile1_some {p : UInt8 → Bool} {i d r : Bytes} :
    takeWhile1 p i = some (d, r) ↔ d ≠ [] ∧ (∀ b ∈ d, p b = true) ∧ i = d ++ r ∧ ∀ b r', r = b :: r' → p b = false := by
  unfold takeWhile1
  constructor
  · intro h
    split at h
    · cases h
    · rename_i hne
      cases h
      refine ⟨hne, fun b hb => List.mem_takeWhile_imp hb, List.takeWhile_append_dropWhile.symm, ?_⟩
      intro b r' hr
      have := List.head?_dropWhile_not p i
      rw [hr] at this
      simpa using this
  · rintro ⟨h1, h2, rfl, h3⟩
    have e1 : (d ++ r).takeWhile p = d := by
      rw [List.takeWhile_append_of_pos h2]
      cases r with
      | nil => simp
      | cons b r => rw [List.takeWhile_cons, h3 b r rfl]; simp
    have e2 : (d ++ r).dropWhile p = r := by
      rw [List.dropWhile_append_of_pos h2]
      cases r with
      | nil => simp
      | cons b r => rw [List.dropWhile_cons, h3 b r rfl]; simp
    rw [e1, e2, if_neg h1]

/-! ### durations -/

/-- text of the seconds -/
def SecsText (x : Bytes) (n : Nat) : Prop := ∃ s, fromUtf8 x = some s ∧ parseUnsigned U64MAX s = some n
/-- text of the fraction -/
def FracText (x : Bytes) (s : Str) : Prop := x ≠ [] ∧ (∀ b ∈ x, isDigit b = true) ∧ fromUtf8 x = some s

theorem SecsText.mem {x : Bytes} {n : Nat} (h : SecsText x n) : ∀ b ∈ x, b = 43 ∨ isDigit b = true := by
  obtain ⟨s, h1, h2⟩ := h
  obtain ⟨c, t, rfl, h3, h4⟩ := parseUnsigned_some h2
  have := bytes_of_fromUtf8 h1
  subst this
  intro b hb
  rw [bytes_cons, List.mem_append] at hb
  rcases hb with hb | hb
  · rcases h3 with rfl | h3
    · left; simpa [String.utf8EncodeChar] using hb
    · right
      exact Digits.isDigit (s := [c]) (by intro d hd; rw [List.mem_singleton] at hd; rw [hd]; exact h3) b (by
        rw [bytes_cons]; simpa using hb)
  · right; exact h4.isDigit b hb

theorem SecsText.ne {x : Bytes} {n : Nat} (h : SecsText x n) : ∃ b y, x = b :: y ∧ (b = 43 ∨ isDigit b = true) := by
  cases x with
  | nil =>
    obtain ⟨s, h1, h2⟩ := h
    have : s = [] := by
      have := fromUtf8_bytes []
      rw [bytes_nil, h1] at this
      injection this
    subst this
    cases h2
  | cons b y => exact ⟨b, y, rfl, h.mem b (by simp)⟩

theorem SecsText.not_mem {x : Bytes} {n : Nat} (h : SecsText x n) {c : UInt8} (h1 : c ≠ 43) (h2 : isDigit c = false) :
    c ∉ x := by
  intro hc
  rcases h.mem c hc with h | h
  · exact h1 h
  · rw [h] at h2; cases h2

theorem FracText.not_mem {x : Bytes} {s : Str} (h : FracText x s) {c : UInt8} (h2 : isDigit c = false) : c ∉ x := by
  intro hc
  rw [h.2.1 c hc] at h2; cases h2

theorem fractSecTuple_some {i r : Bytes} {n : Nat} {s : Str} :
    fractSecTuple i = some ((n, s), r) ↔ ∃ x y, SecsText x n ∧ FracText y s ∧ i = x ++ 46 :: (y ++ r) ∧
      ∀ b r', r = b :: r' → isDigit b = false := by
  unfold fractSecTuple
  simp only [Option.bind_eq_bind, Option.bind_eq_some_iff, Prod.exists, Option.some.injEq, Prod.mk.injEq]
  constructor
  · rintro ⟨x, j, h1, s1, h2, m, h3, k, h4, y, z, h5, s2, h6, ⟨rfl, rfl⟩, rfl⟩
    obtain ⟨h7, r', rfl, rfl⟩ := takeUntil_some.mp h1
    rw [tagP_some] at h4
    simp at h4
    subst h4
    obtain ⟨h8, h9, rfl, h11⟩ := takeWhile1_some.mp h5
    exact ⟨x, y, ⟨s1, h2, h3⟩, ⟨h8, h9, h6⟩, rfl, h11⟩
  · rintro ⟨x, y, hx, ⟨h8, h9, h6⟩, rfl, h11⟩
    have hnm := hx.not_mem (c := 46) (by decide) (by decide)
    obtain ⟨s1, h2, h3⟩ := hx
    exact ⟨x, _, takeUntil_some.mpr ⟨hnm, _, rfl, rfl⟩, s1, h2, n, h3, _, tagP_some.mpr rfl, y, r,
      takeWhile1_some.mpr ⟨h8, h9, rfl, h11⟩, s, h6, ⟨rfl, rfl⟩, rfl⟩

theorem strSlice_ascii {s : Str} : ∀ {n : Nat}, (∀ c ∈ s, c.toNat < 128) → n ≤ s.length → strSlice n s = .ok (s.take n) := by
  induction s with
  | nil =>
    intro n _ hn
    obtain rfl : n = 0 := by simpa using hn
    unfold strSlice; rfl
  | cons c s ih =>
    intro n hc hn
    cases n with
    | zero => unfold strSlice; rfl
    | succ n =>
      have h1 : c.utf8Size = 1 := by
        rw [← String.length_utf8EncodeChar, encode_ascii (hc c (by simp))]; rfl
      unfold strSlice
      rw [h1, if_pos (by omega), Nat.add_sub_cancel,
        ih (fun d hd => hc d (by simp [hd])) (by simpa using hn)]
      rfl

theorem nanosOf_eq {s : Str} (h : Digits s) (hne : s ≠ []) : nanosOf s = .ok (some (fracNanos s)) ∧ fracNanos s < 1000000000 := by
  have hlen := digits_bytes_length h.ascii
  have hlt := decVal_lt h
  have hfn : fracNanos s < 1000000000 := by
    unfold fracNanos
    rw [Nat.div_lt_iff_lt_mul (by positivity)]
    nlinarith
  refine ⟨?_, hfn⟩
  unfold nanosOf
  rw [hlen]
  by_cases h9 : 9 < s.length
  · rw [if_pos h9, strSlice_ascii h.ascii (by omega)]
    have hd : Digits (s.take 9) := fun c hc => h c (List.mem_of_mem_take hc)
    have hdd : Digits (s.drop 9) := fun c hc => h c (List.mem_of_mem_drop hc)
    have hl : (s.take 9).length = 9 := by rw [List.length_take]; omega
    have hv := decVal_lt hd
    rw [hl] at hv
    have e : fracNanos s = decVal (s.take 9) := by
      unfold fracNanos
      have h1 : s = s.take 9 ++ s.drop 9 := (List.take_append_drop 9 s).symm
      have h2 := decVal_lt hdd
      have h3 : s.length = 9 + (s.drop 9).length := by rw [List.length_drop]; omega
      rw [h3, pow_add]
      conv_lhs => rw [h1, decVal_append]
      rw [← h1]
      generalize 10 ^ (s.drop 9).length = p at *
      generalize decVal (s.take 9) = a at *
      generalize decVal (s.drop 9) = b at *
      rw [Nat.div_eq_iff (by omega)]
      norm_num
      constructor
      · nlinarith
      · have : (a * p + b) * 1000000000 + 1 ≤ a * (1000000000 * p) + 1000000000 * p := by nlinarith
        exact Nat.le_sub_of_add_le this
    have hv' : decVal (s.take 9) ≤ 4294967295 := by norm_num at hv; omega
    have e2 : parseUnsigned 4294967295 (s.take 9) = some (decVal (s.take 9)) := by
      rw [parseUnsigned_digits hd (by intro hh; rw [hh] at hl; cases hl), if_pos hv']
    rw [M.ok_bind, e2, e]
  · rw [if_neg h9]
    by_cases h9' : s.length = 9
    · rw [if_pos h9', parseUnsigned_digits h hne]
      rw [h9'] at hlt
      rw [if_pos (by norm_num at hlt; omega)]
      unfold fracNanos
      rw [h9']
      norm_num
    · rw [if_neg h9', parseUnsigned_digits h hne]
      have hp : 10 ^ s.length ≤ 10 ^ 8 := Nat.pow_le_pow_right (by norm_num) (by omega)
      rw [if_pos (by norm_num at hp; omega)]
      simp only
      have e : fracNanos s = decVal s * 10 ^ (9 - s.length) := by
        unfold fracNanos
        have h1 : 1000000000 = 10 ^ (9 - s.length) * 10 ^ s.length := by
          rw [← pow_add, show 9 - s.length + s.length = 9 by omega]; norm_num
        rw [h1, ← Nat.mul_assoc, Nat.mul_div_cancel _ (by positivity)]
      unfold subU
      rw [if_pos (by omega), M.ok_bind]
      unfold mulU32
      rw [← e, if_pos (by omega), M.ok_bind]

theorem FracText.digits {x : Bytes} {s : Str} (h : FracText x s) : Digits s ∧ s ≠ [] := by
  refine ⟨digits_of_bytes h.2.2 h.2.1, ?_⟩
  rintro rfl
  have := bytes_of_fromUtf8 h.2.2
  exact h.1 this.symm

theorem fractSecDuration_eq (i : Bytes) : fractSecDuration i =
    .ok ((fractSecTuple i).map fun p => (⟨p.1.1, fracNanos p.1.2⟩, p.2)) := by
  unfold fractSecDuration
  split
  · rename_i h; rw [h]; rfl
  · rename_i n s r h
    rw [h]
    obtain ⟨x, y, -, hy, -, -⟩ := fractSecTuple_some.mp h
    obtain ⟨h1, h2⟩ := nanosOf_eq hy.digits.1 hy.digits.2
    rw [h1, M.ok_bind]
    simp only [Option.map_some]
    unfold Dur.new
    rw [if_pos h2, M.ok_bind]

/-- text of a duration -/
def DurText (x : Bytes) (d : Dur) : Prop :=
  ∃ a b s, x = a ++ 46 :: b ∧ SecsText a d.secs ∧ FracText b s ∧ d.nanos = fracNanos s

theorem fractSecDuration_some {i r : Bytes} {d : Dur} : fractSecDuration i = .ok (some (d, r)) ↔
    ∃ x, DurText x d ∧ i = x ++ r ∧ ∀ b r', r = b :: r' → isDigit b = false := by
  rw [fractSecDuration_eq]
  constructor
  · intro h
    injection h with h
    rw [Option.map_eq_some_iff] at h
    obtain ⟨⟨⟨n, s⟩, r'⟩, h1, h2⟩ := h
    obtain ⟨x, y, hx, hy, rfl, hr⟩ := fractSecTuple_some.mp h1
    cases h2
    exact ⟨x ++ 46 :: y, ⟨x, y, s, rfl, hx, hy, rfl⟩, by simp, hr⟩
  · rintro ⟨x, ⟨a, b, s, rfl, ha, hb, hn⟩, rfl, hr⟩
    rw [fractSecTuple_some.mpr ⟨a, b, ha, hb, by simp, hr⟩]
    simp only [Option.map_some]
    rw [← hn]

theorem fractSecDuration_ok (i : Bytes) : ∃ x, fractSecDuration i = .ok x := ⟨_, fractSecDuration_eq i⟩

/-! ### lines -/

/-- fields of a duration in front of a separator that is not a digit -/
theorem durComma_some {i r : Bytes} {d : Dur} : durComma i = .ok (some (d, r)) ↔ ∃ x, DurText x d ∧ i = x ++ 44 :: r := by
  unfold durComma
  obtain ⟨o, ho⟩ := fractSecDuration_ok i
  rw [ho, M.ok_bind]
  cases o with
  | none =>
    simp only
    constructor
    · intro h; cases h
    · rintro ⟨x, h1, h2⟩
      rw [fractSecDuration_some.mpr ⟨x, h1, h2, by intro b r' e; cases e; decide⟩] at ho
      cases ho
  | some p =>
    obtain ⟨d', r'⟩ := p
    simp only
    obtain ⟨x, h1, rfl, h3⟩ := fractSecDuration_some.mp ho
    constructor
    · intro h
      split at h
      · cases h
      · rename_i j hj
        cases h
        rw [tagP_some] at hj
        exact ⟨x, h1, by rw [hj]; rfl⟩
    · rintro ⟨x', h1', h2'⟩
      rw [fractSecDuration_some.mpr ⟨x', h1', h2', by intro b r' e; cases e; decide⟩] at ho
      cases ho
      simp [tagP]

theorem durComma_ok (i : Bytes) : ∃ x, durComma i = .ok x := by
  unfold durComma
  obtain ⟨o, ho⟩ := fractSecDuration_ok i
  rw [ho, M.ok_bind]
  cases o with
  | none => exact ⟨_, rfl⟩
  | some p =>
    simp only
    split
    · exact ⟨_, rfl⟩
    · exact ⟨_, rfl⟩

/-- a header line without its line feed -/
def HeaderText (h : Str) (l : Bytes) (d : Dur) : Prop := ∃ x t, DurText x d ∧ 10 ∉ t ∧ l = h.bytes ++ (x ++ 32 :: t)

theorem headerTime_some {h : Str} {i r : Bytes} {d : Dur} :
    headerTime h i = .ok (some (d, r)) ↔ ∃ l, HeaderText h l d ∧ i = l ++ 10 :: r := by
  unfold headerTime
  constructor
  · intro e
    split at e
    · cases e
    · rename_i j hj
      rw [tagP_some] at hj
      obtain ⟨o, ho⟩ := fractSecDuration_ok j
      rw [ho, M.ok_bind] at e
      cases o with
      | none => cases e
      | some p =>
        obtain ⟨d', r'⟩ := p
        simp only at e
        split at e
        · cases e
        · rename_i k hk
          cases e
          unfold headerEnd at hk
          rw [Option.bind_eq_bind, Option.bind_eq_some_iff] at hk
          obtain ⟨k', h1, h2⟩ := hk
          rw [tagP_some] at h1
          obtain ⟨t, h3, rfl⟩ := skipLine_some.mp h2
          obtain ⟨x, h4, rfl, -⟩ := fractSecDuration_some.mp ho
          exact ⟨_, ⟨x, t, h4, h3, rfl⟩, by rw [hj, h1]; simp⟩
  · rintro ⟨l, ⟨x, t, h1, h2, rfl⟩, rfl⟩
    have e1 : tagP h.bytes (h.bytes ++ (x ++ 32 :: t) ++ 10 :: r) = some (x ++ 32 :: (t ++ 10 :: r)) :=
      tagP_some.mpr (by simp)
    rw [e1]
    simp only
    rw [fractSecDuration_some.mpr ⟨x, h1, rfl, by intro b r' e; cases e; decide⟩, M.ok_bind]
    simp only
    have e2 : headerEnd (32 :: (t ++ 10 :: r)) = some r := by
      unfold headerEnd
      rw [Option.bind_eq_bind, Option.bind_eq_some_iff]
      exact ⟨_, tagP_some.mpr rfl, skipLine_some.mpr ⟨t, h2, rfl⟩⟩
    rw [e2]

theorem headerTime_ok (h : Str) (i : Bytes) : ∃ x, headerTime h i = .ok x := by
  unfold headerTime
  split
  · exact ⟨_, rfl⟩
  · rename_i j _
    obtain ⟨o, ho⟩ := fractSecDuration_ok j
    rw [ho, M.ok_bind]
    cases o with
    | none => exact ⟨_, rfl⟩
    | some p => simp only; split <;> exact ⟨_, rfl⟩

theorem tagParser_some {i r : Bytes} {t : Str} :
    tagParser i = some (t, r) ↔ ∃ x, 44 ∉ x ∧ fromUtf8 x = some t ∧ i = tagTag.bytes ++ (x ++ 44 :: r) := by
  unfold tagParser tagBytes
  simp only [Option.bind_eq_bind, Option.bind_eq_some_iff, Prod.exists, Option.some.injEq, Prod.mk.injEq]
  constructor
  · rintro ⟨x, j, ⟨k, h1, y, z, h2, w, h3, rfl, rfl⟩, s, h4, rfl, rfl⟩
    rw [tagP_some] at h1
    obtain ⟨h5, r', rfl, rfl⟩ := takeUntil_some.mp h2
    simp only [take1, Option.some.injEq] at h3
    subst h3
    exact ⟨y, h5, h4, h1⟩
  · rintro ⟨x, h1, h2, rfl⟩
    exact ⟨x, r, ⟨_, tagP_some.mpr rfl, x, _, takeUntil_some.mpr ⟨h1, r, rfl, rfl⟩, r, rfl, rfl, rfl⟩, t, h2, rfl, rfl⟩

/-- text accepted by `double` in front of a comma -/
def DblText (D : Dbl) (m : Bytes) : Prop := 44 ∉ m ∧ D.run (m ++ [44]) = some (m, [44])

theorem dbl_some {D : Dbl} (L : D.Lawful) {i m r : Bytes} :
    D.run i = some (m, 44 :: r) ↔ DblText D m ∧ i = m ++ 44 :: r := by
  constructor
  · intro h
    obtain ⟨rfl, hm⟩ := L.pre _ _ _ h
    refine ⟨⟨hm, ?_⟩, rfl⟩
    rw [L.upto m r hm, Option.map_eq_some_iff] at h
    obtain ⟨⟨m', r'⟩, h1, h2⟩ := h
    simp only [Prod.mk.injEq] at h2
    obtain ⟨rfl, h2⟩ := h2
    have h3 := (L.pre _ _ _ h1).1
    have h4 : r' = [44] := (List.append_cancel_left h3).symm
    rw [h1, h4]
  · rintro ⟨⟨h1, h2⟩, rfl⟩
    rw [L.upto m r h1, h2]
    rfl

theorem intervalEnd_some {D : Dbl} (L : D.Lawful) {i r m : Bytes} {e : Str} :
    intervalEnd D i = some ((m, e), r) ↔ ∃ x s, DblText D m ∧ 10 ∉ x ∧ fromUtf8 x = some s ∧ e = trimCr s ∧
      i = m ++ 44 :: (x ++ 10 :: r) := by
  unfold intervalEnd
  simp only [Option.bind_eq_bind, Option.bind_eq_some_iff, Prod.exists, Option.some.injEq, Prod.mk.injEq]
  constructor
  · rintro ⟨m', j, h1, k, h2, x, y, h3, s, h4, w, h5, ⟨rfl, rfl⟩, rfl⟩
    rw [tagP_some] at h2
    obtain ⟨h6, r', rfl, rfl⟩ := takeUntil_some.mp h3
    simp only [take1, Option.some.injEq] at h5
    subst h5
    subst h2
    obtain ⟨h7, h8⟩ := (dbl_some L).mp h1
    exact ⟨x, s, h7, h6, h4, rfl, h8⟩
  · rintro ⟨x, s, h1, h2, h3, rfl, rfl⟩
    exact ⟨m, _, (dbl_some L).mpr ⟨h1, rfl⟩, _, tagP_some.mpr rfl, x, _, takeUntil_some.mpr ⟨h2, r, rfl, rfl⟩, s, h3, r,
      rfl, ⟨rfl, rfl⟩, rfl⟩

/-- the tag field with its comma -/
def TagText (x : Bytes) : Option Str → Prop
  | none => x = []
  | some t => ∃ y, 44 ∉ y ∧ fromUtf8 y = some t ∧ x = tagTag.bytes ++ (y ++ [44])

/-- an interval line without its line feed -/
def IntervalText (D : Dbl) (l : Bytes) (h : Interval) : Prop :=
  ∃ x1 x2 x3 x5 s, TagText x1 h.tag ∧ DurText x2 h.start ∧ DurText x3 h.duration ∧ DblText D h.max ∧ 10 ∉ x5 ∧
    fromUtf8 x5 = some s ∧ h.encoded = trimCr s ∧ l = x1 ++ (x2 ++ 44 :: (x3 ++ 44 :: (h.max ++ 44 :: x5)))

theorem DurText.head {x : Bytes} {d : Dur} (h : DurText x d) : ∃ b y, x = b :: y ∧ (b = 43 ∨ isDigit b = true) := by
  obtain ⟨a, b, s, rfl, ha, -, -⟩ := h
  obtain ⟨c, y, rfl, hc⟩ := ha.ne
  exact ⟨c, y ++ 46 :: b, rfl, hc⟩

theorem DurText.not_mem {x : Bytes} {d : Dur} (h : DurText x d) {c : UInt8} (h1 : c ≠ 43) (h2 : isDigit c = false)
    (h3 : c ≠ 46) : c ∉ x := by
  obtain ⟨a, b, s, rfl, ha, hb, -⟩ := h
  intro hc
  rcases List.mem_append.mp hc with hc | hc
  · exact ha.not_mem h1 h2 hc
  · rcases List.mem_cons.mp hc with hc | hc
    · exact h3 hc
    · exact hb.not_mem h2 hc

theorem tagParser_dur {x r : Bytes} {d : Dur} (h : DurText x d) : tagParser (x ++ r) = none := by
  cases ht : tagParser (x ++ r) with
  | none => rfl
  | some p =>
    exfalso
    obtain ⟨t, r'⟩ := p
    obtain ⟨y, -, -, h3⟩ := tagParser_some.mp ht
    obtain ⟨b, z, rfl, hb⟩ := h.head
    have e : tagTag.bytes = [84, 97, 103, 61] := by decide
    rw [e] at h3
    simp at h3
    rw [h3.1] at hb
    revert hb
    decide

theorem optTag_of_text {x r : Bytes} {t : Option Str} (h : TagText x t) (hr : t = none → tagParser r = none) :
    optTag (x ++ r) = (t, r) := by
  unfold optTag
  cases t with
  | none =>
    rw [show x = [] from h, List.nil_append, hr rfl]
  | some t =>
    obtain ⟨y, h1, h2, rfl⟩ := h
    rw [(tagParser_some (r := r)).mpr ⟨y, h1, h2, by simp⟩]

theorem optTag_text (i : Bytes) : ∃ x, TagText x (optTag i).1 ∧ i = x ++ (optTag i).2 := by
  unfold optTag
  split
  · rename_i t r h
    obtain ⟨y, h1, h2, h3⟩ := tagParser_some.mp h
    exact ⟨tagTag.bytes ++ (y ++ [44]), ⟨y, h1, h2, rfl⟩, by rw [h3]; simp⟩
  · exact ⟨[], rfl, rfl⟩

theorem intervalHist_some {D : Dbl} (L : D.Lawful) {i r : Bytes} {h : Interval} :
    intervalHist D i = .ok (some (h, r)) ↔ ∃ l, IntervalText D l h ∧ i = l ++ 10 :: r := by
  unfold intervalHist
  constructor
  · intro e
    obtain ⟨x, h1, h2⟩ := optTag_text i
    generalize optTag i = p at *
    obtain ⟨t, j⟩ := p
    simp only at h1 h2 e
    obtain ⟨o, ho⟩ := durComma_ok j
    rw [ho, M.ok_bind] at e
    cases o with
    | none => cases e
    | some p =>
      obtain ⟨d1, k⟩ := p
      simp only at e
      obtain ⟨o2, ho2⟩ := durComma_ok k
      rw [ho2, M.ok_bind] at e
      cases o2 with
      | none => cases e
      | some p2 =>
        obtain ⟨d2, k2⟩ := p2
        simp only at e
        split at e
        · cases e
        · rename_i m s k3 he
          cases e
          obtain ⟨x2, h3, rfl⟩ := durComma_some.mp ho
          obtain ⟨x3, h4, rfl⟩ := durComma_some.mp ho2
          obtain ⟨x5, s', h5, h6, h7, h8, rfl⟩ := (intervalEnd_some L).mp he
          exact ⟨_, ⟨x, x2, x3, x5, s', h1, h3, h4, h5, h6, h7, h8, rfl⟩, by rw [h2]; simp⟩
  · rintro ⟨l, ⟨x1, x2, x3, x5, s, h1, h2, h3, h4, h5, h6, h7, rfl⟩, rfl⟩
    have e : x1 ++ (x2 ++ 44 :: (x3 ++ 44 :: (h.max ++ 44 :: x5))) ++ 10 :: r =
        x1 ++ (x2 ++ 44 :: (x3 ++ 44 :: (h.max ++ 44 :: (x5 ++ 10 :: r)))) := by simp
    rw [e, optTag_of_text h1 (fun _ => tagParser_dur h2)]
    simp only
    rw [durComma_some.mpr ⟨x2, h2, rfl⟩, M.ok_bind]
    simp only
    rw [durComma_some.mpr ⟨x3, h3, rfl⟩, M.ok_bind]
    simp only
    rw [(intervalEnd_some L).mpr ⟨x5, s, h4, h5, h6, h7, rfl⟩]

theorem intervalHist_ok (D : Dbl) (i : Bytes) : ∃ x, intervalHist D i = .ok x := by
  unfold intervalHist
  obtain ⟨o, ho⟩ := durComma_ok (optTag i).2
  simp only
  rw [ho, M.ok_bind]
  cases o with
  | none => exact ⟨_, rfl⟩
  | some p =>
    simp only
    obtain ⟨o2, ho2⟩ := durComma_ok p.2
    rw [ho2, M.ok_bind]
    cases o2 with
    | none => exact ⟨_, rfl⟩
    | some p2 => simp only; split <;> exact ⟨_, rfl⟩

/-- a line that is an entry, without its line feed -/
def EntryText (D : Dbl) (l : Bytes) : Entry → Prop
  | .startTime d => HeaderText startTimeTag l d
  | .baseTime d => HeaderText baseTimeTag l d
  | .interval h => IntervalText D l h

theorem logEntry_ok (D : Dbl) (i : Bytes) : ∃ x, logEntry D i = .ok x := by
  unfold logEntry
  obtain ⟨o1, h1⟩ := headerTime_ok startTimeTag i
  rw [h1, M.ok_bind]
  cases o1 with
  | some p => exact ⟨_, rfl⟩
  | none =>
    simp only
    obtain ⟨o2, h2⟩ := headerTime_ok baseTimeTag i
    rw [h2, M.ok_bind]
    cases o2 with
    | some p => exact ⟨_, rfl⟩
    | none =>
      simp only
      obtain ⟨o3, h3⟩ := intervalHist_ok D i
      rw [h3, M.ok_bind]
      cases o3 <;> exact ⟨_, rfl⟩

/-- the first byte of an interval line -/
theorem IntervalText.head {D : Dbl} {l : Bytes} {h : Interval} (hi : IntervalText D l h) :
    ∃ b y, l = b :: y ∧ (b = 84 ∨ b = 43 ∨ isDigit b = true) := by
  obtain ⟨x1, x2, x3, x5, s, h1, h2, -, -, -, -, -, rfl⟩ := hi
  cases ht : h.tag with
  | none =>
    rw [ht] at h1
    obtain ⟨b, y, rfl, hb⟩ := h2.head
    rw [show x1 = [] from h1]
    exact ⟨b, _, rfl, Or.inr hb⟩
  | some t =>
    rw [ht] at h1
    obtain ⟨y, -, -, rfl⟩ := h1
    have e : tagTag.bytes = [84, 97, 103, 61] := by decide
    rw [e]
    exact ⟨84, _, rfl, Or.inl rfl⟩

theorem startTag_bytes : startTimeTag.bytes = 35 :: 91 :: 83 :: [116, 97, 114, 116, 84, 105, 109, 101, 58, 32] := by decide
theorem baseTag_bytes : baseTimeTag.bytes = 35 :: 91 :: 66 :: [97, 115, 101, 84, 105, 109, 101, 58, 32] := by decide

theorem logEntry_some {D : Dbl} (L : D.Lawful) {i r : Bytes} {e : Entry} :
    logEntry D i = .ok (some (e, r)) ↔ ∃ l, EntryText D l e ∧ i = l ++ 10 :: r := by
  unfold logEntry
  obtain ⟨o1, h1⟩ := headerTime_ok startTimeTag i
  rw [h1, M.ok_bind]
  cases o1 with
  | some p =>
    obtain ⟨d, r'⟩ := p
    simp only
    obtain ⟨l, hl, hi⟩ := headerTime_some.mp h1
    constructor
    · intro h; cases h; exact ⟨l, hl, hi⟩
    · rintro ⟨l', hl', hi'⟩
      cases e with
      | startTime d' =>
        rw [headerTime_some.mpr ⟨l', hl', hi'⟩] at h1
        cases h1; rfl
      | baseTime d' =>
        exfalso
        obtain ⟨x, t, -, -, rfl⟩ := hl
        obtain ⟨x', t', -, -, rfl⟩ := hl'
        rw [hi, startTag_bytes, baseTag_bytes] at hi'
        simp at hi'
      | interval h' =>
        exfalso
        obtain ⟨x, t, -, -, rfl⟩ := hl
        obtain ⟨b, y, rfl, hb⟩ := IntervalText.head hl'
        rw [hi, startTag_bytes] at hi'
        simp at hi'
        rw [← hi'.1] at hb
        revert hb; decide
  | none =>
    simp only
    have hns : ∀ l d, HeaderText startTimeTag l d → i ≠ l ++ 10 :: r := by
      intro l d hl hi
      rw [headerTime_some.mpr ⟨l, hl, hi⟩] at h1
      cases h1
    obtain ⟨o2, h2⟩ := headerTime_ok baseTimeTag i
    rw [h2, M.ok_bind]
    cases o2 with
    | some p =>
      obtain ⟨d, r'⟩ := p
      simp only
      obtain ⟨l, hl, hi⟩ := headerTime_some.mp h2
      constructor
      · intro h; cases h; exact ⟨l, hl, hi⟩
      · rintro ⟨l', hl', hi'⟩
        cases e with
        | startTime d' => exact absurd hi' (hns _ _ hl')
        | baseTime d' =>
          rw [headerTime_some.mpr ⟨l', hl', hi'⟩] at h2
          cases h2; rfl
        | interval h' =>
          exfalso
          obtain ⟨x, t, -, -, rfl⟩ := hl
          obtain ⟨b, y, rfl, hb⟩ := IntervalText.head hl'
          rw [hi, baseTag_bytes] at hi'
          simp at hi'
          rw [← hi'.1] at hb
          revert hb; decide
    | none =>
      simp only
      obtain ⟨o3, h3⟩ := intervalHist_ok D i
      rw [h3, M.ok_bind]
      constructor
      · intro h
        cases o3 with
        | none => cases h
        | some p =>
          obtain ⟨h', r'⟩ := p
          cases h
          exact (intervalHist_some L).mp h3
      · rintro ⟨l', hl', hi'⟩
        cases e with
        | startTime d' => exact absurd hi' (hns _ _ hl')
        | baseTime d' =>
          rw [headerTime_some.mpr ⟨l', hl', hi'⟩] at h2
          cases h2
        | interval h' =>
          rw [(intervalHist_some L).mpr ⟨l', hl', hi'⟩] at h3
          cases h3; rfl

end Hdr.Log
