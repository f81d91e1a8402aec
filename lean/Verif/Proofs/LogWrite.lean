import Verif.Proofs.LogRead
import Verif.Proofs.Mean

/-!
# What the writer produces
-/

namespace Hdr.Log

open Hdr Hdr.F64

/-! ### base64 -/

theorem b64Char_mem {n : Nat} (h : n < 64) : b64Char n ∈ b64Table := by
  unfold b64Char
  have : n < b64Table.length := h
  rw [List.getD_eq_getElem?_getD, List.getElem?_eq_getElem this]
  exact List.getElem_mem _

theorem b64_mem (b : Bytes) : ∀ c ∈ b64Encode b, c ∈ b64Table ∨ c = '=' := by
  induction b using b64Encode.induct with
  | case1 a b c rest ih =>
    have ha := a.toNat_lt; have hb := b.toNat_lt; have hc := c.toNat_lt
    intro d hd
    unfold b64Encode at hd
    simp only [List.mem_cons] at hd
    rcases hd with rfl | rfl | rfl | rfl | hd
    · exact Or.inl (b64Char_mem (by omega))
    · exact Or.inl (b64Char_mem (by omega))
    · exact Or.inl (b64Char_mem (by omega))
    · exact Or.inl (b64Char_mem (by omega))
    · exact ih d hd
  | case2 a b =>
    have ha := a.toNat_lt; have hb := b.toNat_lt
    intro d hd
    unfold b64Encode at hd
    simp only [List.mem_cons, List.not_mem_nil, or_false] at hd
    rcases hd with rfl | rfl | rfl | rfl
    · exact Or.inl (b64Char_mem (by omega))
    · exact Or.inl (b64Char_mem (by omega))
    · exact Or.inl (b64Char_mem (by omega))
    · exact Or.inr rfl
  | case3 a =>
    have ha := a.toNat_lt
    intro d hd
    unfold b64Encode at hd
    simp only [List.mem_cons, List.not_mem_nil, or_false] at hd
    rcases hd with rfl | rfl | rfl | rfl
    · exact Or.inl (b64Char_mem (by omega))
    · exact Or.inl (b64Char_mem (by omega))
    · exact Or.inr rfl
    · exact Or.inr rfl
  | case4 => intro d hd; cases hd

theorem b64Val_char {n : Nat} (h : n < 64) : b64Val (b64Char n) = some n := by
  have : ∀ n < 64, b64Val (b64Char n) = some n := by decide
  exact this n h

theorem b64Char_ne {n : Nat} (h : n < 64) : b64Char n ≠ '=' := by
  have : ∀ n < 64, b64Char n ≠ '=' := by decide
  exact this n h

theorem b64Decode_four {a b c d : Char} {rest : Str} (h : d ≠ '=') : b64Decode (a :: b :: c :: d :: rest) = (do
    let n := (((← b64Val a) * 64 + (← b64Val b)) * 64 + (← b64Val c)) * 64 + (← b64Val d)
    let bs ← b64Decode rest
    some (UInt8.ofNat (n / 65536) :: UInt8.ofNat (n / 256 % 256) :: UInt8.ofNat (n % 256) :: bs)) := by
  rw [b64Decode]
  · intro _ hd; exact absurd hd h
  · intro hd; exact absurd hd h

theorem b64_decode_encode (b : Bytes) : b64Decode (b64Encode b) = some b := by
  induction b using b64Encode.induct with
  | case1 a b c rest ih =>
    have ha := a.toNat_lt; have hb := b.toNat_lt; have hc := c.toNat_lt
    unfold b64Encode
    rw [b64Decode_four (b64Char_ne (by omega)), b64Val_char (by omega), b64Val_char (by omega), b64Val_char (by omega),
      b64Val_char (by omega), ih]
    simp only [Option.bind_eq_bind, Option.bind_some, Option.some.injEq, List.cons.injEq, and_true]
    refine ⟨?_, ?_, ?_⟩ <;> (apply UInt8.toNat_inj.mp; rw [UInt8.toNat_ofNat']; omega)
  | case2 a b =>
    have ha := a.toNat_lt; have hb := b.toNat_lt
    unfold b64Encode
    rw [b64Decode, b64Val_char (by omega), b64Val_char (by omega), b64Val_char (by omega)]
    · simp only [Option.bind_eq_bind, Option.bind_some, Option.some.injEq, List.cons.injEq, and_true]
      refine ⟨?_, ?_⟩ <;> (apply UInt8.toNat_inj.mp; rw [UInt8.toNat_ofNat']; omega)
    · exact b64Char_ne (by omega)
  | case3 a =>
    have ha := a.toNat_lt
    unfold b64Encode
    rw [b64Decode, b64Val_char (by omega), b64Val_char (by omega)]
    simp only [Option.bind_eq_bind, Option.bind_some, Option.some.injEq, List.cons.injEq, and_true]
    apply UInt8.toNat_inj.mp; rw [UInt8.toNat_ofNat']; omega
  | case4 => rfl

theorem b64_not_mem {c : Char} (h1 : c ∉ b64Table) (h2 : c ≠ '=') (b : Bytes) : c ∉ b64Encode b := by
  intro h
  rcases b64_mem b c h with h | h
  · exact h1 h
  · exact h2 h

/-! ### numbers -/

theorem bytes_not_mem {c : Char} (hc : c.toNat < 128) {s : Str} (h : c ∉ s) : UInt8.ofNat c.toNat ∉ Str.bytes s :=
  fun hh => h ((mem_bytes hc s).mp hh)

theorem milli_fixed3 (n : Nat) : Fixed3 (milli n) ∧ Fixed3 ('-' :: milli n) := by
  obtain ⟨h1, h2, -⟩ := decimal_spec (n / 1000)
  obtain ⟨h4, h5, -⟩ := pad3_spec (n := n % 1000) (by omega)
  exact ⟨⟨[], _, _, rfl, Or.inl rfl, h2, h1, h4, h5⟩, ⟨['-'], _, _, rfl, Or.inr rfl, h2, h1, h4, h5⟩⟩

theorem fixed3_fin (f : Fmt) (q : ℚ) : Fixed3 (f.fixed3 (.fin q)) := by
  simp only [Fmt.fixed3]
  split
  · exact (milli_fixed3 _).2
  · exact (milli_fixed3 _).1

theorem milli_dur {n : Nat} (h : n / 1000 ≤ U64MAX) : DurText (Str.bytes (milli n)) ⟨n / 1000, n % 1000 * 1000000⟩ := by
  obtain ⟨h1, h2, h3⟩ := decimal_spec (n / 1000)
  obtain ⟨h4, h5, h6⟩ := pad3_spec (n := n % 1000) (by omega)
  refine ⟨Str.bytes (decimal (n / 1000)), Str.bytes (pad3 (n % 1000)), pad3 (n % 1000), ?_, ⟨_, fromUtf8_bytes _, ?_⟩,
    ⟨?_, h4.isDigit, fromUtf8_bytes _⟩, ?_⟩
  · unfold milli
    rw [bytes_append, bytes_cons]
    rfl
  · rw [parseUnsigned_digits h1 h2, h3, if_pos h]
  · intro hh
    have := digits_bytes_length h4.ascii
    rw [hh, h5] at this
    cases this
  · show n % 1000 * 1000000 = fracNanos (pad3 (n % 1000))
    unfold fracNanos
    rw [h5, h6]
    omega

theorem rndQ_near_max : rndQ 18446744073709550591 = 18446744073709549568 := by decide +kernel
theorem rndQ_near_max' : rndQ 18446744073709549569 = 18446744073709549568 := by decide +kernel

theorem fpSeconds_eq {d : Dur} (hd : d.Valid) :
    durationAsFpSeconds d = .fin (rndQ (rndQ (d.secs : ℚ) + rndQ ((d.nanos : ℚ) / 1000000000))) := by
  obtain ⟨h1, h2⟩ := hd
  have hs := rndQ_u64_le h1
  have hs0 : 0 ≤ rndQ (d.secs : ℚ) := rndQ_nonneg (by positivity)
  have hn : (d.nanos : ℚ) < 1000000000 := by exact_mod_cast h2
  have hn0 : (0 : ℚ) ≤ d.nanos := by positivity
  have hU : U64MAX = 18446744073709551615 := rfl
  have en : ofNat d.nanos = .fin d.nanos := by
    rw [ofNat_fin (by omega), rndQ_nat (by norm_num; omega)]
  have eb : ofNat 1000000000 = .fin 1000000000 := by
    rw [ofNat_fin (by omega), rndQ_nat (by norm_num)]; norm_num
  have hm0 : 0 ≤ rndQ ((d.nanos : ℚ) / 1000000000) := rndQ_nonneg (by positivity)
  have hm1 : rndQ ((d.nanos : ℚ) / 1000000000) ≤ 1 := rndQ_le_one (by rw [div_le_one (by norm_num)]; linarith)
  have ediv : F64.div (ofNat d.nanos) (ofNat 1000000000) = .fin (rndQ ((d.nanos : ℚ) / 1000000000)) := by
    rw [en, eb]
    simp only [F64.div]
    rw [if_neg (by norm_num)]
    refine rnd_fin ?_
    rw [abs_of_nonneg (by positivity)]
    refine le_trans ?_ pow64_le
    rw [div_le_iff₀ (by norm_num)]
    linarith
  unfold durationAsFpSeconds
  rw [ediv, ofNat_fin h1]
  refine rnd_fin ?_
  rw [abs_of_nonneg (by linarith)]
  refine le_trans ?_ pow128_le
  norm_num at hs ⊢
  linarith

theorem fpSeconds {d : Dur} (hd : d.Valid) : ∃ q, durationAsFpSeconds d = .fin q ∧ 0 ≤ q ∧ |q - d.val| ≤ d.val / 2 ^ 51 ∧
    (d.secs < 2 ^ 64 - 1024 → q ≤ 18446744073709549568) := by
  have eadd := fpSeconds_eq hd
  obtain ⟨h1, h2⟩ := hd
  have hs0 : 0 ≤ rndQ (d.secs : ℚ) := rndQ_nonneg (by positivity)
  have hn : (d.nanos : ℚ) < 1000000000 := by exact_mod_cast h2
  have hm0 : 0 ≤ rndQ ((d.nanos : ℚ) / 1000000000) := rndQ_nonneg (by positivity)
  have hm1 : rndQ ((d.nanos : ℚ) / 1000000000) ≤ 1 := rndQ_le_one (by rw [div_le_one (by norm_num)]; linarith)
  refine ⟨_, eadd, rndQ_nonneg (by linarith), ?_, ?_⟩
  · have n1 : Near 1 (rndQ (d.secs : ℚ)) d.secs := nat_near
    have hsmall : ∀ x : ℚ, 1 / 2000000000 ≤ x → 2 ^ (-1022 : ℤ) ≤ x := by
      intro x hx
      refine le_trans (zpow_small (k := 31) (by norm_num)) (le_trans ?_ hx)
      norm_num
    have hnat : d.nanos = 0 ∨ 1 / 1000000000 ≤ (d.nanos : ℚ) / 1000000000 := by
      rcases Nat.eq_zero_or_pos d.nanos with h | h
      · exact Or.inl h
      · right
        have : (1 : ℚ) ≤ d.nanos := by exact_mod_cast h
        rw [div_le_div_iff_of_pos_right (by norm_num)]
        exact this
    have n2 : Near 1 (rndQ ((d.nanos : ℚ) / 1000000000)) ((d.nanos : ℚ) / 1000000000) := by
      refine (Near.refl _).rnd (by positivity) ?_
      rcases hnat with h | h
      · left; rw [h]; simp
      · right; exact hsmall _ (by linarith)
    have n3 := (n1.add n2).rnd (by positivity) (by
      by_cases hz : rndQ (d.secs : ℚ) + rndQ ((d.nanos : ℚ) / 1000000000) = 0
      · exact Or.inl hz
      · right
        by_cases hsec : d.secs = 0
        · rcases hnat with h | h
          · exfalso; apply hz; rw [hsec, h]; simp [rndQ_zero]
          · refine hsmall _ ?_
            have := n2.1
            rw [pow_one] at this
            norm_num at this h ⊢
            linarith
        · have : (1 : ℚ) ≤ rndQ (d.secs : ℚ) := one_le_rndQ (by exact_mod_cast Nat.pos_of_ne_zero hsec)
          refine hsmall _ ?_
          linarith)
    obtain ⟨l1, l2⟩ := n3
    have hv : 0 ≤ d.val := by unfold Dur.val; positivity
    have ev : (d.secs : ℚ) + (d.nanos : ℚ) / 1000000000 = d.val := rfl
    rw [ev] at l1 l2
    rw [abs_le]
    norm_num at l1 l2 ⊢
    constructor <;> linarith
  · intro hlt
    have h3 : rndQ (d.secs : ℚ) ≤ 18446744073709549568 := by
      rw [← rndQ_near_max]
      refine rndQ_mono ?_
      have : d.secs ≤ 18446744073709550591 := by norm_num at hlt; omega
      exact_mod_cast this
    rw [← rndQ_near_max']
    refine rndQ_mono ?_
    linarith

theorem time_text (f : Fmt) {d : Dur} (hd : d.Loggable) : ∃ d', DurText (Str.bytes (f.fixed3 (durationAsFpSeconds d))) d' ∧
    SameTime d d' := by
  obtain ⟨hv, hs⟩ := hd
  obtain ⟨q, e, h0, h1, h2⟩ := fpSeconds hv
  have h2 := h2 hs
  have hm := f.near q h0
  have e2 : f.fixed3 (durationAsFpSeconds d) = milli (f.ms q) := by
    rw [e]
    simp only [Fmt.fixed3]
    rw [if_neg (by linarith)]
  rw [e2]
  generalize f.ms q = n at *
  have hU : U64MAX = 18446744073709551615 := rfl
  have hn : n / 1000 ≤ U64MAX := by
    rw [abs_le] at hm
    have h3 : (n : ℚ) ≤ 1000 * 18446744073709549568 + 1 := by linarith [hm.2]
    have h4 : n ≤ 1000 * 18446744073709549568 + 1 := by exact_mod_cast h3
    omega
  refine ⟨⟨n / 1000, n % 1000 * 1000000⟩, milli_dur hn, ⟨hn, ?_⟩, ⟨n % 1000, Nat.mul_comm _ _⟩, ?_⟩
  · show n % 1000 * 1000000 < 1000000000
    omega
  · have ev : (⟨n / 1000, n % 1000 * 1000000⟩ : Dur).val = (n : ℚ) / 1000 := by
      show ((n / 1000 : ℕ) : ℚ) + ((n % 1000 * 1000000 : ℕ) : ℚ) / 1000000000 = (n : ℚ) / 1000
      have := Nat.div_add_mod n 1000
      have h5 : (n : ℚ) = 1000 * ((n / 1000 : ℕ) : ℚ) + ((n % 1000 : ℕ) : ℚ) := by exact_mod_cast this.symm
      push_cast
      rw [h5]
      ring
    rw [ev]
    have h6 : (n : ℚ) / 1000 - d.val = ((n : ℚ) / 1000 - q) + (q - d.val) := by ring
    rw [h6]
    exact le_trans (abs_add_le _ _) (add_le_add hm h1)

/-! ### comments -/

theorem ascii_prefix {p : Str} (hp : ∀ c ∈ p, c.toNat < 128) : ∀ {s : Str}, Str.bytes p <+: Str.bytes s → p <+: s := by
  induction p with
  | nil => intro s _; exact List.nil_prefix
  | cons c p ih =>
    intro s h
    have hc := hp c (by simp)
    rw [bytes_cons, encode_ascii hc] at h
    cases s with
    | nil => obtain ⟨t, ht⟩ := h; cases ht
    | cons d s =>
      rw [bytes_cons] at h
      by_cases hd : d.toNat < 128
      · rw [encode_ascii hd] at h
        simp only [List.singleton_append, List.cons_prefix_cons] at h
        obtain ⟨h1, h2⟩ := h
        have : c = d := by
          have h3 := congrArg UInt8.toNat h1
          rw [UInt8.toNat_ofNat', UInt8.toNat_ofNat', Nat.mod_eq_of_lt (by omega), Nat.mod_eq_of_lt (by omega)] at h3
          exact Char.toNat_inj.mp h3
        subst this
        rw [List.cons_prefix_cons]
        exact ⟨rfl, ih (fun c hc => hp c (by simp [hc])) h2⟩
      · exfalso
        have h3 := encode_high (c := d) (by omega)
        cases he : String.utf8EncodeChar d with
        | nil =>
          have := String.length_utf8EncodeChar d
          rw [he] at this
          have := Char.utf8Size_pos d
          simp at *
        | cons b bs =>
          rw [he] at h h3
          obtain ⟨t, ht⟩ := h
          simp at ht
          have h4 := h3 b (by simp)
          rw [← ht.1, UInt8.toNat_ofNat'] at h4
          omega

theorem splitLines_no_lf (s : Str) : ∀ l ∈ splitLines s, '\n' ∉ l := by
  induction s with
  | nil => intro l hl; simp [splitLines] at hl; rw [hl]; simp
  | cons c s ih =>
    intro l hl
    unfold splitLines at hl
    split at hl
    · rcases List.mem_cons.mp hl with rfl | hl
      · simp
      · exact ih l hl
    · rename_i hc
      split at hl
      · simp at hl; rw [hl]; simpa using Ne.symm hc
      · rename_i m ls he
        rw [he] at ih
        rcases List.mem_cons.mp hl with rfl | hl
        · have := ih m (by simp)
          simp [this, Ne.symm hc]
        · exact ih l (by simp [hl])

theorem comment_line {D : Dbl} {l : Str} (h1 : '\n' ∉ l)
    (h2 : ¬ ['[', 'S', 't', 'a', 'r', 't', 'T', 'i', 'm', 'e', ':', ' '] <+: l)
    (h3 : ¬ ['[', 'B', 'a', 's', 'e', 'T', 'i', 'm', 'e', ':', ' '] <+: l) :
    Reads D (Str.bytes ('#' :: l ++ ['\n'])) [] none := by
  have e : Str.bytes ('#' :: l ++ ['\n']) = Str.bytes ('#' :: l) ++ 10 :: [] := by
    rw [bytes_append]; congr 1
  have hb : ∀ (t : Str) (d : Dur), (∀ c ∈ t, c.toNat < 128) → HeaderText ('#' :: t) (Str.bytes ('#' :: l)) d → t <+: l := by
    rintro t d ht ⟨x, y, -, -, h4⟩
    have := ascii_prefix (p := '#' :: t) (s := '#' :: l)
      (by intro c hc; rcases List.mem_cons.mp hc with rfl | hc; decide; exact ht c hc) ⟨_, h4.symm⟩
    exact (List.cons_prefix_cons.mp this).2
  rw [e]
  refine .skip ⟨?_, Or.inl ?_⟩ ?_ .nil
  · exact bytes_not_mem (c := '\n') (by decide) (by simp [h1])
  · rw [bytes_cons]; exact List.prefix_append _ _
  · intro en he
    cases en with
    | startTime d => exact h2 (hb _ d (by decide) he)
    | baseTime d => exact h3 (hb _ d (by decide) he)
    | interval h =>
      obtain ⟨b, y, h5, h6⟩ := IntervalText.head he
      rw [bytes_cons, show String.utf8EncodeChar '#' = [35] by decide] at h5
      simp at h5
      rw [← h5.1] at h6
      revert h6; decide

theorem reads_flatMap {D : Dbl} {α : Type} (g : α → Bytes) {xs : List α} (h : ∀ x ∈ xs, Reads D (g x) [] none) :
    Reads D (xs.flatMap g) [] none := by
  induction xs with
  | nil => exact .nil
  | cons x xs ih =>
    rw [List.flatMap_cons]
    exact reads_append (h x (by simp)) (ih fun y hy => h y (by simp [hy]))

theorem comment_reads {D : Dbl} {s : Str} (h : Plain s) : Reads D (commentBytes s) [] none :=
  reads_flatMap _ fun l hl => comment_line (splitLines_no_lf s l hl) (h l hl).1 (h l hl).2

/-! ### headers -/

theorem header_text (f : Fmt) {t : Str} {d d' : Dur}
    (h : DurText (Str.bytes (f.fixed3 (durationAsFpSeconds d))) d') :
    ∃ l, HeaderText t l d' ∧ headerBytes f t (some (durationAsFpSeconds d)) = l ++ 10 :: [] := by
  refine ⟨_, ⟨_, Str.bytes "(seconds since epoch)]".toList, h, by decide, rfl⟩, ?_⟩
  simp only [headerBytes]
  rw [bytes_append, bytes_append, show Str.bytes epochText = 32 :: (Str.bytes "(seconds since epoch)]".toList ++ [10]) by decide]
  simp

theorem startHeader (D : Dbl) (f : Fmt) {o : Option Dur} (h : ∀ d, o = some d → d.Loggable) : ∃ es,
    Reads D (headerBytes f startTimeTag (o.map fun d => systemTimeAsFpSeconds (.afterEpoch d))) es none ∧
      List.Forall₂ SameEntry (o.map Entry.startTime).toList es := by
  cases o with
  | none => exact ⟨[], .nil, .nil⟩
  | some d =>
    obtain ⟨d', h1, h2⟩ := time_text f (h d rfl)
    obtain ⟨l, h3, h4⟩ := header_text f (t := startTimeTag) h1
    refine ⟨[.startTime d'], ?_, .cons (.startTime h2) .nil⟩
    show Reads D (headerBytes f startTimeTag (some (durationAsFpSeconds d))) _ _
    rw [h4]
    exact .entry h3 .nil

theorem baseHeader (D : Dbl) (f : Fmt) {o : Option Dur} (h : ∀ d, o = some d → d.Loggable) : ∃ es,
    Reads D (headerBytes f baseTimeTag (o.map fun d => systemTimeAsFpSeconds (.afterEpoch d))) es none ∧
      List.Forall₂ SameEntry (o.map Entry.baseTime).toList es := by
  cases o with
  | none => exact ⟨[], .nil, .nil⟩
  | some d =>
    obtain ⟨d', h1, h2⟩ := time_text f (h d rfl)
    obtain ⟨l, h3, h4⟩ := header_text f (t := baseTimeTag) h1
    refine ⟨[.baseTime d'], ?_, .cons (.baseTime h2) .nil⟩
    show Reads D (headerBytes f baseTimeTag (some (durationAsFpSeconds d))) _ _
    rw [h4]
    exact .entry h3 .nil

theorem fixed3_no_lf (f : Fmt) (x : F64) : '\n' ∉ f.fixed3 x := by
  have hm : ∀ n, '\n' ∉ milli n := by
    intro n hn
    obtain ⟨h1, -, -⟩ := decimal_spec (n / 1000)
    obtain ⟨h4, -, -⟩ := pad3_spec (n := n % 1000) (by omega)
    unfold milli at hn
    rcases List.mem_append.mp hn with hn | hn
    · exact absurd (h1 _ hn) (by decide)
    · rcases List.mem_cons.mp hn with hn | hn
      · cases hn
      · exact absurd (h4 _ hn) (by decide)
  cases x with
  | nan => simp [Fmt.fixed3]
  | pinf => simp [Fmt.fixed3]
  | ninf => simp [Fmt.fixed3]
  | fin q =>
    simp only [Fmt.fixed3]
    split
    · simp [hm]
    · exact hm _

theorem divisor_reads (D : Dbl) (f : Fmt) (x : F64) : Reads D (Str.bytes (divisorTag ++ f.fixed3 x ++ [']', '\n'])) [] none := by
  have e : divisorTag ++ f.fixed3 x ++ [']', '\n'] = '#' :: (divisorTag.tail ++ f.fixed3 x ++ [']']) ++ ['\n'] := by
    show divisorTag ++ f.fixed3 x ++ [']', '\n'] = divisorTag ++ f.fixed3 x ++ [']'] ++ ['\n']
    simp
  rw [e]
  refine comment_line ?_ ?_ ?_
  · have h1 := fixed3_no_lf f x
    have h2 : '\n' ∉ divisorTag.tail := by decide
    simp [h1, h2]
  · rintro ⟨t, ht⟩
    rw [show divisorTag.tail = '[' :: 'M' :: divisorTag.tail.tail.tail by decide] at ht
    simp at ht
  · rintro ⟨t, ht⟩
    rw [show divisorTag.tail = '[' :: 'M' :: divisorTag.tail.tail.tail by decide] at ht
    simp at ht

theorem begin_reads (D : Dbl) (f : Fmt) {b : Builder} {st bt : Option Dur} (hc : ∀ s ∈ b.comments, Plain s)
    (hst : b.startTime = st.map fun d => systemTimeAsFpSeconds (.afterEpoch d))
    (hbt : b.baseTime = bt.map fun d => systemTimeAsFpSeconds (.afterEpoch d))
    (hs : ∀ d, st = some d → d.Loggable) (hb : ∀ d, bt = some d → d.Loggable) :
    ∃ es, Reads D (b.beginBytes f) es none ∧ List.Forall₂ SameEntry (headerEntries st bt) es := by
  obtain ⟨es1, h1, h2⟩ := startHeader D f hs
  obtain ⟨es2, h3, h4⟩ := baseHeader D f hb
  refine ⟨es1 ++ es2, ?_, List.rel_append h2 h4⟩
  unfold Builder.beginBytes
  rw [hst, hbt]
  have h5 : Reads D (if !F64.feq b.maxValueDivisor (.fin 1) then
      Str.bytes (divisorTag ++ f.fixed3 b.maxValueDivisor ++ [']', '\n']) else []) [] none := by
    split
    · exact divisor_reads D f _
    · exact .nil
  have h0 : Reads D (b.comments.flatMap commentBytes) [] none := reads_flatMap _ fun s hs => comment_reads (hc s hs)
  have := reads_append (reads_append (reads_append h0 h1) h3) h5
  simpa using this

/-! ### intervals -/

theorem Tag.new_iff {s : Str} {t : Tag} : Tag.new s = some t ↔ t.str = s ∧ ∀ c ∈ s, c ≠ ',' ∧ c ≠ '\r' ∧ c ≠ '\n' ∧ c ≠ ' ' := by
  unfold Tag.new
  split
  · rename_i h
    constructor
    · intro hh; cases hh
    · rintro ⟨-, h2⟩
      exfalso
      rw [List.any_eq_true] at h
      obtain ⟨c, h3, h4⟩ := h
      have := h2 c h3
      simp [this] at h4
  · rename_i h
    constructor
    · intro hh
      cases hh
      refine ⟨rfl, fun c hc => ?_⟩
      rw [List.any_eq_true] at h
      have : ¬ (c == ',' || c == '\r' || c == '\n' || c == ' ') = true := fun hh => h ⟨c, hc, hh⟩
      simpa [not_or, and_assoc] using this
    · rintro ⟨h1, -⟩
      cases t
      simp at h1
      rw [h1]

theorem tag_text {tag : Option Tag} (h : ∀ t, tag = some t → ∃ s, Tag.new s = some t) :
    TagText (Str.bytes (tagText tag)) (tag.map Tag.asStr) := by
  cases tag with
  | none => rfl
  | some t =>
    obtain ⟨s, hs⟩ := h t rfl
    obtain ⟨h1, h2⟩ := Tag.new_iff.mp hs
    refine ⟨Str.bytes t.str, ?_, fromUtf8_bytes _, ?_⟩
    · refine bytes_not_mem (c := ',') (by decide) ?_
      intro hc
      rw [h1] at hc
      exact (h2 _ hc).1 rfl
    · show Str.bytes (tagTag ++ t.str ++ [',']) = _
      rw [bytes_append, bytes_append, List.append_assoc]
      rfl

theorem trimCr_of_not_mem {s : Str} (h : '\r' ∉ s) : trimCr s = s := by
  unfold trimCr
  rw [List.rdropWhile_eq_self_iff]
  intro hne
  have := List.getLast_mem hne
  simp only [decide_eq_true_eq]
  intro hh
  rw [hh] at this
  exact h this

theorem dbl_text {D : Dbl} (L : D.Lawful) (f : Fmt) (q : ℚ) : DblText D (Str.bytes (f.fixed3 (.fin q))) := by
  have h := L.fixed _ (fixed3_fin f q)
  exact ⟨(L.pre _ _ _ h).2, h⟩

variable {T : CounterTy} {ε : Type}

theorem writeHistogram_reads {D : Dbl} (L : D.Lawful) {f : Fmt} {divisor : F64} {ser : Hist T → M (Except ε Bytes)}
    {h : Hist T} {start duration : Dur} {tag : Option Tag} {b : Bytes} (hst : start.Loggable) (hdu : duration.Loggable)
    (htag : ∀ t, tag = some t → ∃ s, Tag.new s = some t)
    (hmax : ∃ m q, h.max = .ok m ∧ F64.div (F64.ofNat m) divisor = .fin q)
    (hw : writeHistogram f divisor ser h start duration tag = .ok (b, .ok ())) :
    ∃ m buf s' d', h.max = .ok m ∧ ser h = .ok (.ok buf) ∧ SameTime start s' ∧ SameTime duration d' ∧
      Reads D b [.interval ⟨tag.map Tag.asStr, s', d', Str.bytes (f.fixed3 (F64.div (F64.ofNat m) divisor)), b64Encode buf⟩]
        none := by
  obtain ⟨m, q, hm, hq⟩ := hmax
  obtain ⟨s', h1, h2⟩ := time_text f hst
  obtain ⟨d', h3, h4⟩ := time_text f hdu
  have h5 := tag_text htag
  unfold writeHistogram at hw
  rw [hm, M.ok_bind] at hw
  simp only at hw
  rw [M.bind_eq_ok] at hw
  obtain ⟨o, h6, h7⟩ := hw
  cases o with
  | error e => cases h7
  | ok buf =>
    simp only [Except.ok.injEq, Prod.mk.injEq, and_true] at h7
    refine ⟨m, buf, s', d', hm, h6, h2, h4, ?_⟩
    rw [← h7]
    have e : ∀ x1 x2 x3 x4 x5 : Str, Str.bytes (x1 ++ x2 ++ [','] ++ x3 ++ [','] ++ x4 ++ [',']) ++ Str.bytes x5 ++ [10] =
        (Str.bytes x1 ++ (Str.bytes x2 ++ 44 :: (Str.bytes x3 ++ 44 :: (Str.bytes x4 ++ 44 :: Str.bytes x5)))) ++ 10 :: [] := by
      intro x1 x2 x3 x4 x5
      simp only [bytes_append, show Str.bytes [','] = [44] by decide]
      simp
    rw [e]
    refine .entry (e := .interval _) ⟨_, _, _, _, _, h5, h1, h3, ?_, ?_, fromUtf8_bytes _, ?_, rfl⟩ .nil
    · show DblText D (Str.bytes (f.fixed3 (F64.div (F64.ofNat m) divisor)))
      rw [hq]; exact dbl_text L f q
    · exact bytes_not_mem (c := '\n') (by decide) (b64_not_mem (by decide) (by decide) buf)
    · exact (trimCr_of_not_mem (b64_not_mem (by decide) (by decide) buf)).symm

theorem runOps_reads {D : Dbl} (L : D.Lawful) {f : Fmt} {divisor : F64} {ser : Ser ε} {ops : List Op} : ∀ {b : Bytes},
    (∀ op ∈ ops, op.Loggable divisor) → runOps f divisor ser ops = .ok (.ok b) →
    ∃ es es', Intended f divisor ser ops es ∧ List.Forall₂ SameEntry es es' ∧ Reads D b es' none := by
  induction ops with
  | nil =>
    intro b _ h
    cases h
    exact ⟨[], [], .nil, .nil, .nil⟩
  | cons op ops ih =>
    intro b hl h
    unfold runOps at h
    rw [M.bind_eq_ok] at h
    obtain ⟨⟨b1, r1⟩, h1, h2⟩ := h
    cases r1 with
    | error e => cases h2
    | ok u =>
      simp only at h2
      rw [M.bind_eq_ok] at h2
      obtain ⟨o, h3, h4⟩ := h2
      cases o with
      | error e => cases h4
      | ok bs =>
        simp only [Except.ok.injEq] at h4
        subst h4
        obtain ⟨es, es', i1, i2, i3⟩ := ih (fun op h => hl op (by simp [h])) h3
        have hop := hl op (by simp)
        cases op with
        | comment s =>
          simp only [Op.run, Except.ok.injEq, Prod.mk.injEq] at h1
          obtain ⟨rfl, -⟩ := h1
          exact ⟨es, es', .comment i1, i2, reads_append (comment_reads hop) i3⟩
        | hist h start duration tag =>
          obtain ⟨l1, l2, l3, l4⟩ := hop
          obtain ⟨m, buf, s', d', j1, j2, j3, j4, j5⟩ := writeHistogram_reads L l1 l2 l3 l4 h1
          exact ⟨_, _, .hist j1 j2 i1, .cons (.interval j3 j4) i2, reads_append j5 i3⟩

theorem writeLog_reads {D : Dbl} (L : D.Lawful) {f : Fmt} {b : Builder} {ser : Ser ε} {ops : List Op} {st bt : Option Dur}
    {out : Bytes} (hc : ∀ s ∈ b.comments, Plain s)
    (hst : b.startTime = st.map fun d => systemTimeAsFpSeconds (.afterEpoch d))
    (hbt : b.baseTime = bt.map fun d => systemTimeAsFpSeconds (.afterEpoch d))
    (hs : ∀ d, st = some d → d.Loggable) (hb : ∀ d, bt = some d → d.Loggable)
    (hl : ∀ op ∈ ops, op.Loggable b.maxValueDivisor) (h : writeLog f b ser ops = .ok (.ok out)) :
    ∃ es es', Intended f b.maxValueDivisor ser ops es ∧ List.Forall₂ SameEntry (headerEntries st bt ++ es) es' ∧
      Reads D out es' none := by
  unfold writeLog at h
  rw [M.bind_eq_ok] at h
  obtain ⟨o, h1, h2⟩ := h
  cases o with
  | error e => cases h2
  | ok bs =>
    simp only [Except.ok.injEq] at h2
    subst h2
    obtain ⟨es1, h3, h4⟩ := begin_reads D f hc hst hbt hs hb
    obtain ⟨es, es', i1, i2, i3⟩ := runOps_reads L hl h1
    exact ⟨es, es1 ++ es', i1, List.rel_append h4 i2, reads_append h3 i3⟩

end Hdr.Log
