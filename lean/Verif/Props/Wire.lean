import Verif.Proofs.Exact
import Verif.Spec.Api
import Verif.Props.Query
import Verif.Props.Record

/-!
# C34–C42: the V2 binary formats
-/

namespace Hdr

open V2

variable {T : CounterTy} {fp : Fp}

/-! ## C34 -/

/-- whenever the stream reader succeeds so does the slice reader -/
theorem V2.slice_of_read (s : List UInt8) {x : Nat} {r : List UInt8} (h : varintRead s = some (x, r)) :
    varintReadSlice s = .ok (x, s.length - r.length) := by
  rw [varintRead_go] at h
  unfold varintReadSlice
  rcases s with _ | ⟨b0, s⟩
  · exact absurd h (by simp [go])
  simp only [go] at h
  simp only [getB, List.getElem?_cons_zero, List.getElem?_cons_succ, M.ok_bind]
  cases hb0 : isHighBitSet b0
  · simp only [hb0, Bool.false_eq_true, if_false, Option.some.injEq, Prod.mk.injEq] at h
    obtain ⟨rfl, rfl⟩ := h
    simp [M.pure_eq]
  simp only [hb0, if_true] at h
  simp only [Bool.not_true, Bool.false_eq_true, if_false]
  rcases s with _ | ⟨b1, s⟩
  · exact absurd h (by simp [go])
  simp only [go] at h
  simp only [List.getElem?_cons_zero, List.getElem?_cons_succ, M.ok_bind]
  cases hb1 : isHighBitSet b1
  · simp only [hb1, Bool.false_eq_true, if_false, Option.some.injEq, Prod.mk.injEq] at h
    obtain ⟨rfl, rfl⟩ := h
    simp [M.pure_eq]; omega
  simp only [hb1, if_true] at h
  simp only [Bool.not_true, Bool.false_eq_true, if_false]
  rcases s with _ | ⟨b2, s⟩
  · exact absurd h (by simp [go])
  simp only [go] at h
  simp only [List.getElem?_cons_zero, List.getElem?_cons_succ, M.ok_bind]
  cases hb2 : isHighBitSet b2
  · simp only [hb2, Bool.false_eq_true, if_false, Option.some.injEq, Prod.mk.injEq] at h
    obtain ⟨rfl, rfl⟩ := h
    simp [M.pure_eq]; omega
  simp only [hb2, if_true] at h
  simp only [Bool.not_true, Bool.false_eq_true, if_false]
  rcases s with _ | ⟨b3, s⟩
  · exact absurd h (by simp [go])
  simp only [go] at h
  simp only [List.getElem?_cons_zero, List.getElem?_cons_succ, M.ok_bind]
  cases hb3 : isHighBitSet b3
  · simp only [hb3, Bool.false_eq_true, if_false, Option.some.injEq, Prod.mk.injEq] at h
    obtain ⟨rfl, rfl⟩ := h
    simp [M.pure_eq]; omega
  simp only [hb3, if_true] at h
  simp only [Bool.not_true, Bool.false_eq_true, if_false]
  rcases s with _ | ⟨b4, s⟩
  · exact absurd h (by simp [go])
  simp only [go] at h
  simp only [List.getElem?_cons_zero, List.getElem?_cons_succ, M.ok_bind]
  cases hb4 : isHighBitSet b4
  · simp only [hb4, Bool.false_eq_true, if_false, Option.some.injEq, Prod.mk.injEq] at h
    obtain ⟨rfl, rfl⟩ := h
    simp [M.pure_eq]; omega
  simp only [hb4, if_true] at h
  simp only [Bool.not_true, Bool.false_eq_true, if_false]
  rcases s with _ | ⟨b5, s⟩
  · exact absurd h (by simp [go])
  simp only [go] at h
  simp only [List.getElem?_cons_zero, List.getElem?_cons_succ, M.ok_bind]
  cases hb5 : isHighBitSet b5
  · simp only [hb5, Bool.false_eq_true, if_false, Option.some.injEq, Prod.mk.injEq] at h
    obtain ⟨rfl, rfl⟩ := h
    simp [M.pure_eq]; omega
  simp only [hb5, if_true] at h
  simp only [Bool.not_true, Bool.false_eq_true, if_false]
  rcases s with _ | ⟨b6, s⟩
  · exact absurd h (by simp [go])
  simp only [go] at h
  simp only [List.getElem?_cons_zero, List.getElem?_cons_succ, M.ok_bind]
  cases hb6 : isHighBitSet b6
  · simp only [hb6, Bool.false_eq_true, if_false, Option.some.injEq, Prod.mk.injEq] at h
    obtain ⟨rfl, rfl⟩ := h
    simp [M.pure_eq]; omega
  simp only [hb6, if_true] at h
  simp only [Bool.not_true, Bool.false_eq_true, if_false]
  rcases s with _ | ⟨b7, s⟩
  · exact absurd h (by simp [go])
  simp only [go] at h
  simp only [List.getElem?_cons_zero, List.getElem?_cons_succ, M.ok_bind]
  cases hb7 : isHighBitSet b7
  · simp only [hb7, Bool.false_eq_true, if_false, Option.some.injEq, Prod.mk.injEq] at h
    obtain ⟨rfl, rfl⟩ := h
    simp [M.pure_eq]; omega
  simp only [hb7, if_true] at h
  simp only [Bool.not_true, Bool.false_eq_true, if_false]
  rcases s with _ | ⟨b8, s⟩
  · exact absurd h (by simp [go])
  simp only [go] at h
  simp only [List.getElem?_cons_zero, M.ok_bind]
  simp only [Option.some.injEq, Prod.mk.injEq] at h
  obtain ⟨rfl, rfl⟩ := h
  simp [M.pure_eq]; omega

/-- C34 (1): for every `u64` there is an encoding of 1 to 9 bytes which the writer puts at the front of any buffer
of at least 9 bytes, returning its length; both readers decode it and consume exactly those bytes, whatever follows;
the stream reader fails on every strict prefix. -/
theorem C34_varint (x : Nat) (hx : x ≤ U64MAX) :
    ∃ code : List UInt8, 1 ≤ code.length ∧ code.length ≤ 9 ∧
      (∀ buf : List UInt8, 9 ≤ buf.length →
        varintWrite x buf = .ok (code ++ buf.drop code.length, code.length)) ∧
      (∀ rest, varintRead (code ++ rest) = some (x, rest)) ∧
      (∀ rest, varintReadSlice (code ++ rest) = .ok (x, code.length)) ∧
      (∀ p q, code = p ++ q → q ≠ [] → varintRead p = none) := by
  have hlt : x < 128 ^ 8 * 256 := by
    have hU : U64MAX = 18446744073709551615 := rfl
    norm_num; omega
  have hr : ∀ rest, varintRead (leb 8 x ++ rest) = some (x, rest) := fun rest => by
    rw [varintRead_eq, unleb_leb _ _ hlt]
  refine ⟨leb 8 x, (leb_length 8 x).1, (leb_length 8 x).2, fun buf hb => varintWrite_eq x buf hb, hr,
    fun rest => ?_, fun p q e hq => ?_⟩
  · rw [slice_of_read _ (hr rest)]
    congr 2
    rw [List.length_append]; omega
  · rw [varintRead_eq]
    refine unleb_prefix 8 x p ⟨q, e.symm⟩ fun hc => ?_
    rw [← hc] at e
    exact hq (by simpa using e)

/-- C34 (2): on any nine or more bytes both readers succeed and agree on the number and on what they consume. -/
theorem C34_readers_agree (s : List UInt8) (hs : 9 ≤ s.length) :
    ∃ x n, x ≤ U64MAX ∧ 1 ≤ n ∧ n ≤ 9 ∧ varintReadSlice s = .ok (x, n) ∧ varintRead s = some (x, s.drop n) := by
  obtain ⟨x, n, h1, h2, h3, h4⟩ := varintReadSlice_eq s hs
  refine ⟨x, n, ?_, h3, h4, h1, h2⟩
  rw [varintRead_eq] at h2
  have := (unleb_bound 8 s x _ h2).1
  norm_num at this
  have hU : U64MAX = 18446744073709551615 := rfl
  omega

example : varintRead [0xAC, 0x02, 0x55] = some (300, [0x55]) ∧ varintRead [0xAC] = none ∧
    varintRead (List.replicate 9 0xFF) = some (U64MAX, []) := by decide +kernel

/-! ## C35 -/

/-- C35 (1): decoding inverts encoding on all of `i64`, and non-negative numbers map to `2n`, negative ones to
`-2n-1`. -/
theorem C35_zigzag_encode (n : Int) (h0 : -9223372036854775808 ≤ n) (h1 : n ≤ 9223372036854775807) :
    zigZagDecode (zigZagEncode n) = n ∧ zigZagEncode n ≤ U64MAX ∧
      (0 ≤ n → (zigZagEncode n : Int) = 2 * n) ∧ (n < 0 → (zigZagEncode n : Int) = -2 * n - 1) := by
  have hU : U64MAX = 18446744073709551615 := rfl
  have e1 : (-2 ^ 63 : Int) = -9223372036854775808 := by norm_num
  have e2 : (2 ^ 63 : Int) = 9223372036854775808 := by norm_num
  have e3 : (2 ^ 64 : Nat) = 18446744073709551616 := by norm_num
  have a : -2 ^ 63 ≤ n := by rw [e1]; omega
  have b : n < 2 ^ 63 := by rw [e2]; omega
  have c := zigZagEncode_lt a b
  rw [e3] at c
  refine ⟨zigZag_roundtrip a b, by omega, fun h => ?_, fun h => ?_⟩
  · rw [zigZagEncode_nonneg h b]; omega
  · rw [zigZagEncode_neg h a]; omega

/-- C35 (2): encoding inverts decoding on all of `u64`. -/
theorem C35_zigzag_decode (u : Nat) (hu : u ≤ U64MAX) :
    zigZagEncode (zigZagDecode u) = u ∧ -9223372036854775808 ≤ zigZagDecode u ∧
      zigZagDecode u ≤ 9223372036854775807 := by
  have hU : U64MAX = 18446744073709551615 := rfl
  have e3 : (2 ^ 64 : Nat) = 18446744073709551616 := by norm_num
  have e1 : (-2 ^ 63 : Int) = -9223372036854775808 := by norm_num
  have e2 : (2 ^ 63 : Int) = 9223372036854775808 := by norm_num
  have h : u < 2 ^ 64 := by rw [e3]; omega
  have r := zigZagDecode_range h
  rw [e1, e2] at r
  exact ⟨zigZag_roundtrip' h, r.1, by omega⟩

example : zigZagEncode (-3) = 5 ∧ zigZagEncode 3 = 6 ∧ zigZagEncode (-9223372036854775808) = U64MAX := by decide +kernel

/-! ## C41 -/

theorem WF.big_iff {h : Hist T} (W : WF fp h) {cs : List Cls} (C : Classes h cs) (b : Nat) :
    (∃ c ∈ cs, b < c.count) ↔ ∃ j, j ≤ h.lidx h.maxValue ∧ b < h.counts.getD j 0 := by
  constructor
  · rintro ⟨c, hc, hb⟩
    obtain ⟨i, hi, rfl⟩ := (W.mem_classes C).mp hc
    have hb' : b < h.counts.getD i 0 := hb
    exact ⟨i, W.trackMax i (by omega), hb'⟩
  · rintro ⟨j, hj, hb⟩
    have hc := W.maxcov
    exact ⟨_, (W.mem_classes C).mpr ⟨j, by omega, rfl⟩, hb⟩

/-- C41: `serialize` to an in-memory writer fails exactly if some count exceeds `i64::MAX` (no class above that of
`max()` has a count), then with `CountNotSerializable`; otherwise it succeeds. -/
theorem C41_serialize_outcome {h : Hist T} (R : Reachable fp T h) {cs : List Cls} (C : Classes h cs)
    (junk : Nat → UInt8) :
    ((∃ c ∈ cs, 9223372036854775807 < c.count) → serialize junk h = .ok (.error .CountNotSerializable)) ∧
      ((∀ c ∈ cs, c.count ≤ 9223372036854775807) → ∃ bytes n, serialize junk h = .ok (.ok (bytes, n))) ∧
      (∀ c ∈ cs, c.count ≠ 0 → ∃ m, h.max = .ok m ∧ c.lo ≤ m) := by
  have W := R.wf
  obtain ⟨r, hr, hs⟩ := serialize_spec W
  refine ⟨fun hb => ?_, fun hb => ?_, fun c hc h0 => ?_⟩
  · cases r with
    | none => exact hs junk
    | some ts =>
      obtain ⟨j, h1, h2⟩ := (W.big_iff C _).mp hb
      have := hr.2.2.2.1 j h1
      omega
  · cases r with
    | none =>
      obtain ⟨c, h1, h2⟩ := (W.big_iff C _).mpr hr
      have := hb c h1
      omega
    | some ts => exact ⟨_, _, hs junk⟩
  · obtain ⟨i, hi, rfl⟩ := (W.mem_classes C).mp hc
    refine ⟨_, W.max_eq, ?_⟩
    have h1 := W.trackMax i h0
    have : h.lval i ≤ h.maxValue := (show h.lval i ≤ h.maxValue ↔ i ≤ h.lidx h.maxValue from Lay.val_le_iff).mpr h1
    exact this.trans W.maxValue_le_lmax

/-! ## C39 -/

/-- C39: `serialize` never panics, never reads outside the counts array nor writes outside the reserved buffer (both
are errors of the model), never exposes uninitialised memory (the result is the same whatever that memory held), and
returns the number of bytes written, at most 40 plus 9 per class up to that of `max()`. -/
theorem C39_serialize_safe {h : Hist T} (R : Reachable fp T h) {cs : List Cls} (C : Classes h cs) :
    ∃ r, (∀ junk, serialize junk h = .ok r) ∧
      ∀ bytes n, r = .ok (bytes, n) → n = bytes.length ∧
        ∃ m, h.max = .ok m ∧ n ≤ 40 + 9 * (cs.filter fun c => decide (c.lo ≤ m)).length := by
  have W := R.wf
  obtain ⟨r, hr, hs⟩ := serialize_spec W
  refine ⟨_, hs, fun bytes n e => ?_⟩
  cases r with
  | none => cases e
  | some ts =>
    simp only [Except.ok.injEq, Prod.mk.injEq] at e
    obtain ⟨rfl, rfl⟩ := e
    refine ⟨rfl, _, W.max_eq, ?_⟩
    have h1 := wire_length h ts
    have h2 := enc_length ts
    have h3 := hr.2.2.1
    have hc := W.maxcov
    have : (cs.filter fun c => decide (c.lo ≤ h.lmax)).length = h.lidx h.maxValue + 1 := by
      rw [W.classes_unique C, List.filter_map, List.length_map]
      have : (List.range h.counts.length).filter ((fun c : Cls => decide (c.lo ≤ h.lmax)) ∘ h.lcls)
          = List.range (h.lidx h.maxValue + 1) := by
        apply List.Perm.eq_of_pairwise (le := (· < ·))
        · intro a b _ _ h1 h2; omega
        · exact (List.pairwise_lt_range).filter _
        · exact List.pairwise_lt_range
        · rw [List.perm_ext_iff_of_nodup ((List.nodup_range).filter _) List.nodup_range]
          intro k
          rw [List.mem_filter, List.mem_range, List.mem_range]
          simp only [Function.comp, decide_eq_true_eq]
          have e1 : (h.lcls k).lo ≤ h.lmax ↔ k ≤ h.lidx h.maxValue := by
            rw [← W.lidx_lmax]; exact Lay.val_le_iff
          rw [e1]; omega
      rw [this, List.length_range]
    omega

/-- the bytes of a small histogram: 40 of header, then 1, -2 (two zeros), 3, 200 -/
example : (serialize (fun _ => 0xAA) demo3).toOption.map (fun r => r.toOption.map fun p => (p.1.drop 40, p.2)) =
    some (some ([2, 3, 6, 144, 3], 45)) := by decide +kernel

/-! ## C36 -/

/-- what survives a V2 round trip of any histogram -/
structure Restored {T' : CounterTy} (h : Hist T) (g : Hist T') : Prop where
  low : g.low = h.low
  high : g.high = h.high
  sigfig : g.sigfig = h.sigfig
  distinctValues : g.distinctValues = h.distinctValues
  count : ∀ v, v ≤ U64MAX → g.countAt v = h.countAt v

/-- what is read back from the encoding of `h` -/
def asRead (T' : CounterTy) (h : Hist T) : Hist T' := decoded ({ h.retype T' with autoResize := false } : Hist T')

theorem decoded_restored {h : Hist T} (W : WF fp h) {T' : CounterTy} (W' : WF fp (asRead T' h)) :
    Restored h (asRead T' h) :=
  ⟨rfl, rfl, rfl, rfl, fun v hv => by rw [W'.countAt_eq hv, W.countAt_eq hv]; rfl⟩

theorem wire_of_ok {h : Hist T} (W : WF fp h) {junk : Nat → UInt8} {bytes : List UInt8} {n : Nat}
    (e : serialize junk h = .ok (.ok (bytes, n))) :
    ∃ ts : List Int, bytes = wire h ts ∧ n = bytes.length ∧ ts.flatMap expand = h.counts.take (h.lidx h.maxValue + 1) ∧ (∀ t ∈ ts, Tok t)
      ∧ ts.length ≤ h.lidx h.maxValue + 1 ∧ (enc ts).length < 2 ^ 32 := by
  obtain ⟨r, hr, hs⟩ := serialize_spec W
  rw [hs junk] at e
  cases r with
  | none => cases e
  | some ts =>
    simp only [Except.ok.injEq, Prod.mk.injEq] at e
    obtain ⟨rfl, rfl⟩ := e
    refine ⟨ts, rfl, rfl, hr.1, hr.2.1, hr.2.2.1, ?_⟩
    have h2 := enc_length ts
    have h3 := hr.2.2.1
    have hc := W.maxcov
    have hall : h.counts.length < 2 ^ 24 := lt_of_le_of_lt W.len_le_all (Lay.allSlots_lt W.mag17)
    norm_num at hall ⊢
    omega

/-- C36 (1): deserializing what `serialize` wrote succeeds, with overflow checks on or off, as any counter type that
can hold the counts, and restores the configuration, the number of distinct values and every count. The statistics of
the original need not be exact. -/
theorem C36_round_trip {h : Hist T} (R : Reachable fp T h) {junk : Nat → UInt8} {bytes : List UInt8} {n : Nat}
    (e : serialize junk h = .ok (.ok (bytes, n))) (z : Zlib) (checks : Bool) (T' : CounterTy) {cs : List Cls}
    (C : Classes h cs) (hfit : ∀ c ∈ cs, c.count ≤ T'.max) :
    ∃ g, deserialize fp z T' checks bytes = .ok (.ok (g, [])) ∧ Restored h g ∧ Reachable fp T' g := by
  have W := R.wf
  obtain ⟨ts, rfl, -, h1, h2, h3, -⟩ := wire_of_ok W e
  have hf : ∀ c ∈ h.counts, c ≤ T'.max := by
    intro c hc
    obtain ⟨i, hi, rfl⟩ := List.getElem_of_mem hc
    have := hfit (h.lcls i) ((W.mem_classes C).mpr ⟨i, hi, rfl⟩)
    have e1 : (h.lcls i).count = h.counts[i] := by
      show h.counts.getD i 0 = _
      rw [List.getD_eq_getElem?_getD, List.getElem?_eq_getElem hi]; rfl
    rw [e1] at this; exact this
  have d : deserialize fp z T' checks (wire h ts) = .ok (.ok (asRead T' h, [])) := by
    have d := deserialize_wire W z T' checks h1 h2 h3 hf []
    rw [List.append_nil] at d; exact d
  have Rg : Reachable fp T' _ := .deserialize z checks _ _ d
  exact ⟨_, d, decoded_restored W Rg.wf, Rg⟩

theorem decoded_eq_both {h : Hist T} (W : WF fp h) {cs : List Cls} (C : Classes h cs) (E : ExactStats h cs)
    (hx : h.max = .ok (U64MAX - 1) → h.unitMag = 0) (W' : WF fp (asRead T h)) :
    h.eq (asRead T h) = .ok true ∧ (asRead T h).eq h = .ok true := by
  obtain ⟨e1, e2, e3⟩ := (W.exactStats_iff C).mp E
  have m : (asRead T h).lmax = h.lmax := by
    rcases decoded_lmax W' with hm | ⟨-, hm2, i, hm3, hm4⟩
    · rw [e2]; exact hm
    · exfalso
      apply hm2
      apply hx
      rw [W.max_eq, e2]
      have hm3' : lastNz h.counts 0 = some i := hm3
      rw [hm3']
      exact congrArg _ hm4
  have mn : (asRead T h).lminNz = h.lminNz := by
    rw [e3]; exact decoded_lminNz
  obtain ⟨b1, f1, g1⟩ := W.eq_spec W'
  obtain ⟨b2, f2, g2⟩ := W'.eq_spec W
  rw [f1, f2, g1.mpr ⟨rfl, rfl, e1, m.symm, mn.symm, List.prefix_rfl⟩,
    g2.mpr ⟨rfl, rfl, e1.symm, m, mn, List.prefix_rfl⟩]
  exact ⟨rfl, rfl⟩

/-- C36 (2) (partial: excludes one corner, see `C36_refuted`: `max()` is `u64::MAX - 1` with a unit above 1): if the
statistics of `h` are exact and its counts serializable, it compares equal, in both directions, to its round trip. -/
theorem C36_round_trip_eq_partial {h : Hist T} (R : Reachable fp T h) {cs : List Cls} (C : Classes h cs)
    (E : ExactStats h cs) (hx : h.max = .ok (U64MAX - 1) → h.highestEquivalent 0 = .ok 0)
    (hser : ∀ c ∈ cs, c.count ≤ 9223372036854775807) (junk : Nat → UInt8) (z : Zlib) (checks : Bool) :
    ∃ bytes g, serialize junk h = .ok (.ok (bytes, bytes.length)) ∧
      deserialize fp z T checks bytes = .ok (.ok (g, [])) ∧ h.eq g = .ok true ∧ g.eq h = .ok true ∧ Restored h g := by
  have W := R.wf
  obtain ⟨bytes, n, e⟩ := (C41_serialize_outcome R C junk).2.1 hser
  obtain ⟨ts, rfl, rfl, h1, h2, h3, -⟩ := wire_of_ok W e
  have d : deserialize fp z T checks (wire h ts) = .ok (.ok (asRead T h, [])) := by
    have d := deserialize_wire W z T checks h1 h2 h3 W.cmax []
    rw [List.append_nil] at d; exact d
  have Rg : Reachable fp T _ := .deserialize z checks _ _ d
  obtain ⟨b1, b2⟩ := decoded_eq_both W C E (fun hm => W.unit_one (hx hm)) Rg.wf
  exact ⟨_, _, e, d, b1, b2, decoded_restored W Rg.wf⟩

theorem WF.recordSeq_min_zero {l : List (Nat × Nat)} : ∀ {h h' : Hist T}, WF fp h →
    (∀ p ∈ l, p.1 ≤ U64MAX ∧ p.2 ≤ T.max) → (∀ p ∈ l, h.lidx p.1 = 0) → recordSeq l h = .ok (h', .ok ()) →
    h'.minNonZero = h.minNonZero := by
  induction l with
  | nil => intro h h' _ _ _ e; cases e; rfl
  | cons p l ih =>
    intro h h' W hl hz e
    obtain ⟨v, c⟩ := p
    have hvc := hl (v, c) (by simp)
    rw [recordSeq_cons, W.recordN_eq hvc.1 hvc.2] at e
    by_cases hcov : h.lidx v < h.counts.length ∨ h.autoResize = true
    · rw [if_pos hcov, M.ok_bind] at e
      simp only at e
      have hidx : ∀ w, ((h.growTo v).recorded v c).lidx w = h.lidx w := by
        intro w
        have : ((h.growTo v).recorded v c).lidx w = (h.growTo v).lidx w := rfl
        rw [this]; unfold Hist.lidx; simp
      rw [ih (W.record_wf hvc.1) (fun p hp => hl p (by simp [hp]))
        (fun p hp => by rw [hidx]; exact hz p (by simp [hp])) e]
      have h5 : ((h.growTo v).recorded v c).minNonZero = (h.growTo v).newMin v := rfl
      have h0 : (h.growTo v).lidx v = 0 := by
        have := hz (v, c) (by simp)
        unfold Hist.lidx at this ⊢; simpa using this
      rw [h5, newMin_zero (W.growTo hvc.1).toLayoutOK h0]
      simp
    · rw [if_neg hcov, M.ok_bind] at e; cases e

theorem hits_pos {h : Hist T} {l : List (Nat × Nat)} {p : Nat × Nat} (hp : p ∈ l) (h0 : 0 < p.2) :
    0 < h.hits l (h.lidx p.1) := by
  have : p.2 ≤ h.hits l (h.lidx p.1) := by
    unfold Hist.hits
    exact mem_le_sum (List.mem_map.mpr ⟨p, hp, by simp⟩)
  omega

theorem of_hits_pos {h : Hist T} {l : List (Nat × Nat)} {j : Nat} (h0 : h.hits l j ≠ 0) : ∃ p ∈ l, h.lidx p.1 = j := by
  by_contra hc
  push Not at hc
  apply h0
  unfold Hist.hits
  apply List.sum_eq_zero
  intro x hx
  rw [List.mem_map] at hx
  obtain ⟨p, hp, rfl⟩ := hx
  rw [if_neg (hc p hp)]

/-- Recording positive counts into a blank histogram keeps the statistics exact, provided the total is, no value is in
the class of `u64::MAX`, and, if the unit is above 1, something other than zeros is recorded. -/
theorem recordSeq_exactStats_of_total {h h' : Hist T} (R : Reachable fp T h) (B : Blank h) {l : List (Nat × Nat)}
    (hl : ∀ p ∈ l, p.1 ≤ U64MAX ∧ p.2 ≤ T.max) (hpos : ∀ p ∈ l, 0 < p.2) (e : recordSeq l h = .ok (h', .ok ()))
    {cs : List Cls} (C : Classes h' cs) (hexact : h'.totalCount = min h'.counts.sum U64MAX)
    (htop : ∀ p ∈ l, ¬ Equiv h p.1 U64MAX)
    (hz : h.unitMag = 0 ∨ ∃ p ∈ l, p.1 ≠ 0) : ExactStats h' cs ∧ (h'.max = .ok (U64MAX - 1) → h'.unitMag = 0) := by
  have W := R.wf
  obtain ⟨h1, r1, e1, W1, hr⟩ := W.recordSeq_spec l hl
  have e0 := e
  rw [e1] at e; cases e
  obtain ⟨E, hall⟩ := hr
  obtain ⟨-, hge⟩ := W.recordSeq_max hl e1
  have hidx : ∀ v, h'.lidx v = h.lidx v := E.cfg.lidx
  have hT := T_max_pos T
  have hcnt : ∀ j, h'.counts.getD j 0 = min (h.hits l j) T.max := by
    intro j; rw [E.counts, B.getD W]; omega
  have hmaxI : h.lidx h'.maxValue = h.maxAfter l 0 := by rw [E.max, B.lidx_max W]
  obtain ⟨-, m2, m3⟩ := maxAfter_bounds h l 0
  have hnz : ∀ p ∈ l, h'.counts.getD (h.lidx p.1) 0 ≠ 0 := by
    intro p hp
    have := hits_pos (h := h) hp (hpos p hp)
    rw [hcnt]; omega
  have hof : ∀ j, h'.counts.getD j 0 ≠ 0 → ∃ p ∈ l, h.lidx p.1 = j := by
    intro j hj
    rw [hcnt] at hj
    exact of_hits_pos (by omega)
  have htop' : ∀ p ∈ l, h.lidx p.1 ≠ h.lidx U64MAX := fun p hp hc =>
    htop p hp ((W.equiv_iff (hl p hp).1 le_rfl).mpr hc)
  have hcfgum : h'.unitMag = h.unitMag := E.cfg.um
  have hi0 : ∀ {i}, h'.lval i = U64MAX → i = h.lidx U64MAX := by
    intro i hi
    rw [← hidx, ← hi]
    exact (show h'.lidx (h'.lval i) = i from Lay.idx_val).symm
  have hlast := lastNz_spec h'.counts 0
  have hmax : h'.lmax = (match lastNz h'.counts 0 with | none => 0 | some i => h'.lhi (h'.lval i)) ∧
      (h'.lmax = U64MAX - 1 → h'.unitMag = 0) := by
    cases hn : lastNz h'.counts 0 with
    | none =>
      rw [hn] at hlast
      have hnil : l = [] := by
        cases l with
        | nil => rfl
        | cons p l => exact absurd (hlast _) (hnz p (by simp))
      have hum : h.unitMag = 0 := by
        rcases hz with hz | ⟨p, hp, -⟩
        · exact hz
        · rw [hnil] at hp; cases hp
      have hI : h'.lidx h'.maxValue = 0 := by rw [hidx, hmaxI, hnil]; rfl
      have := Lay.idx_eq_zero_iff.mp hI
      rw [hcfgum, hum] at this
      have h0 : h'.maxValue = 0 := by omega
      unfold Hist.lmax
      rw [if_pos h0]
      exact ⟨rfl, fun hc => absurd hc (by decide)⟩
    | some i =>
      rw [hn] at hlast
      simp only [Nat.sub_zero, Nat.zero_add] at hlast ⊢
      obtain ⟨-, hi, hi2, hi3⟩ := hlast
      obtain ⟨p, hp, hpi⟩ := hof i hi2
      have hI : h.lidx h'.maxValue = i := by
        rw [hmaxI]
        exact Nat.le_antisymm (m3 _ (by omega) fun q hq => hi3 _ (hnz q hq)) (hpi ▸ m2 p hp)
      have hlt : h.lidx h'.maxValue < h.lidx U64MAX := by
        have : h.lidx h'.maxValue ≤ h.lidx U64MAX := Lay.idx_mono W1.maxle
        have := htop' p hp
        omega
      have hlmax : h'.lidx h'.lmax ≠ h.lidx U64MAX := by rw [W1.lidx_lmax, hidx]; omega
      have e2 : h'.lmax = h'.lhi (h'.lval i) := by
        unfold Hist.lmax
        split
        · rename_i h0
          have hum : h.unitMag = 0 := by
            rcases hz with hz | ⟨q, hq, hq0⟩
            · exact hz
            · have := hge q hq; omega
          have : i = 0 := by rw [← hI, h0]; exact Lay.idx_zero
          subst this
          have hv0 : h'.lval 0 = 0 := by by_contra hc; exact lval_ne_zero.mp hc rfl
          have hz2 : h'.lidx (h'.lhi (h'.lval 0)) = 0 := by
            rw [lidx_lhi (by rw [hv0]; decide), hv0]; exact Lay.idx_zero
          have := Lay.idx_eq_zero_iff.mp hz2
          rw [hcfgum, hum] at this
          omega
        · apply lhi_eq_of_lidx
          · rw [hidx, hI]; exact (show h'.lidx (h'.lval i) = i from Lay.idx_val).symm
          · intro hc; rw [hc] at hlt; omega
          · intro hc; have := hi0 hc; omega
      refine ⟨e2, fun hc => ?_⟩
      have hne : h'.lval i ≠ U64MAX := by intro hc; have := hi0 hc; omega
      have a1 : h'.lval (i + 1) ≤ U64MAX :=
        (show h'.lval (i + 1) ≤ U64MAX ↔ i + 1 ≤ h'.lidx U64MAX from Lay.val_le_iff).mpr (by rw [hidx]; omega)
      have a2 : h'.lval (i + 1) = h'.lval i + h'.lwid (h'.lval i) := Lay.val_succ
      have a3 : h'.llo (h'.lval i) = h'.lval i := Lay.lo_val
      rw [e2] at hc
      unfold Hist.lhi at hc
      rw [if_neg hne, a3] at hc
      have hU : U64MAX = 18446744073709551615 := rfl
      have a4 : h'.lval (i + 1) = U64MAX := by omega
      have a5 : 2 ^ h'.unitMag ∣ U64MAX := by rw [← a4]; exact unit_dvd_lval _ _ _
      by_contra hum
      have a6 : 2 ∣ U64MAX := (dvd_pow_self 2 hum).trans a5
      rw [hU] at a6
      omega
  have hmin : h'.lminNz = h'.scanMin := by
    have hfirst := firstNz_spec h'.counts 0
    unfold Hist.scanMin
    cases hn : firstNz h'.counts 0 with
    | none =>
      rw [hn] at hfirst
      simp only [Nat.zero_add] at hfirst ⊢
      have : h'.minNonZero = h.minNonZero := W.recordSeq_min_zero hl (fun p hp => by
        by_contra hc; exact hnz p hp (hfirst _ hc)) e1
      unfold Hist.lminNz
      rw [this, B.min_sentinel W, if_pos rfl]
    | some i =>
      rw [hn] at hfirst
      simp only [Nat.sub_zero, Nat.zero_add] at hfirst ⊢
      obtain ⟨-, hi0', hi, hi2, hi3⟩ := hfirst
      obtain ⟨p, hp, hpi⟩ := hof i hi2
      obtain ⟨-, b2, b3⟩ := minAfter_bounds h l (h.lidx U64MAX)
      have hI : h.lidx h'.minNonZero = i := by
        rw [E.min, B.min_sentinel W]
        refine Nat.le_antisymm (hpi ▸ b2 p hp (by omega)) (b3 _ ?_ fun q hq hne => hi3 _ hne (hnz q hq))
        rw [← hpi]; exact Lay.idx_mono (hl p hp).1
      unfold Hist.lminNz
      rw [if_neg (by intro hc; rw [hc] at hI; exact htop' p hp (by omega))]
      have : h'.lval (h'.lidx h'.minNonZero) = h'.llo h'.minNonZero := Lay.val_idx
      rw [← this, hidx, hI]
  refine ⟨(W1.exactStats_iff C).mpr ⟨hexact, hmax.1, hmin⟩, fun hc => hmax.2 ?_⟩
  rw [W1.max_eq] at hc
  injection hc

/-- Recording positive counts into a blank histogram keeps the statistics exact, provided no counter saturates, no
value is in the class of `u64::MAX`, and, if the unit is above 1, something other than zeros is recorded. -/
theorem recordSeq_exactStats {h h' : Hist T} (R : Reachable fp T h) (B : Blank h) {l : List (Nat × Nat)}
    (hl : ∀ p ∈ l, p.1 ≤ U64MAX ∧ p.2 ≤ T.max) (hpos : ∀ p ∈ l, 0 < p.2) (e : recordSeq l h = .ok (h', .ok ()))
    {cs : List Cls} (C : Classes h' cs) (hns : ∀ c ∈ cs, c.count < T.max) (htop : ∀ p ∈ l, ¬ Equiv h p.1 U64MAX)
    (hz : h.unitMag = 0 ∨ ∃ p ∈ l, p.1 ≠ 0) : ExactStats h' cs ∧ (h'.max = .ok (U64MAX - 1) → h'.unitMag = 0) := by
  have W := R.wf
  obtain ⟨h1, r1, e1, W1, -⟩ := W.recordSeq_spec l hl
  have e0 := e
  rw [e1] at e; cases e
  have hexact : h'.totalCount = min h'.counts.sum U64MAX := by
    refine W.recordSeq_exact hl e1 ?_ (exact_of_empty W B.len)
    intro c hc
    obtain ⟨i, hi, rfl⟩ := List.getElem_of_mem hc
    have := hns (h'.lcls i) ((W1.mem_classes C).mpr ⟨i, hi, rfl⟩)
    have e1 : (h'.lcls i).count = h'.counts[i] := by
      show h'.counts.getD i 0 = _
      rw [List.getD_eq_getElem?_getD, List.getElem?_eq_getElem hi]; rfl
    rw [e1] at this; exact this
  exact recordSeq_exactStats_of_total R B hl hpos e0 C hexact htop hz

/-- C36 (2) for recorded histories (partial: the excluded values are real exceptions, see `C36_refuted`,
`C36_max_refuted` and `C36_zeros_refuted`): record any values with positive counts into a new (or reset) histogram,
with or without auto-resize. If no counter saturates or exceeds `i64::MAX`, no value lies in the class of `u64::MAX`
and, with a unit above 1, not only zeros are recorded, then the round trip compares equal in both directions. -/
theorem C36_recorded_partial {h h' : Hist T} (R : Reachable fp T h) (B : Blank h) {l : List (Nat × Nat)}
    (hl : ∀ p ∈ l, p.1 ≤ U64MAX ∧ p.2 ≤ T.max) (hpos : ∀ p ∈ l, 0 < p.2) (e : recordSeq l h = .ok (h', .ok ()))
    {cs : List Cls} (C : Classes h' cs) (hns : ∀ c ∈ cs, c.count < T.max ∧ c.count ≤ 9223372036854775807)
    (htop : ∀ p ∈ l, ¬ Equiv h p.1 U64MAX) (hz : h.highestEquivalent 0 = .ok 0 ∨ ∃ p ∈ l, p.1 ≠ 0)
    (junk : Nat → UInt8) (z : Zlib) (checks : Bool) :
    ∃ bytes g, serialize junk h' = .ok (.ok (bytes, bytes.length)) ∧
      deserialize fp z T checks bytes = .ok (.ok (g, [])) ∧ h'.eq g = .ok true ∧ g.eq h' = .ok true ∧ Restored h' g := by
  have R' : Reachable fp T h' := reachable_recordSeq R hl e
  obtain ⟨E, hx⟩ := recordSeq_exactStats R B hl hpos e C (fun c hc => (hns c hc).1) htop
    (hz.imp_left R.wf.unit_one)
  exact C36_round_trip_eq_partial R' C E (fun hm => R'.wf.unit_one_iff.mpr (hx hm)) (fun c hc => (hns c hc).2) junk z checks

/-- a reachable histogram with exact statistics meeting all the hypotheses -/
example : ∃ cs, Classes demo3 cs ∧ ExactStats demo3 cs ∧ (demo3.max = .ok (U64MAX - 1) → demo3.highestEquivalent 0 = .ok 0) ∧
    ∀ c ∈ cs, c.count ≤ 9223372036854775807 := by
  have W := demo3_reachable.wf
  refine ⟨_, W.classes, (W.exactStats_iff W.classes).mpr (by decide +kernel), fun _ => by decide, ?_⟩
  intro c hc
  obtain ⟨i, hi, rfl⟩ := (W.mem_classes W.classes).mp hc
  have := W.getD_le i
  have h2 : CounterTy.max .u8 = 255 := rfl
  have h3 : (demo3.lcls i).count = demo3.counts.getD i 0 := rfl
  omega

/-- C36 does not hold in full: in a histogram with unit 4, a single sample in the last class. Its statistics are exact,
yet `max()` changes from `u64::MAX - 1` to `u64::MAX` and the histograms differ under `==`. -/
theorem C36_refuted :
    demoTopUT.max = .ok (U64MAX - 1) ∧ (∃ cs, Classes demoTopUT cs ∧ ExactStats demoTopUT cs) ∧
    ∃ bytes g, serialize (fun _ => 0) demoTopUT = .ok (.ok (bytes, 42)) ∧
      deserialize Fp.ideal Zlib.stored .u8 true bytes = .ok (.ok (g, [])) ∧ g.max = .ok U64MAX ∧
      demoTopUT.eq g = .ok false := by
  have W : WF Fp.ideal demoTopUT :=
    (Reachable.recordN (v := U64MAX - 100) (c := 1) demoTopU_reachable (by decide) (by decide) C17_max_refuted.2.1).wf
  refine ⟨by decide +kernel, ⟨_, W.classes, (W.exactStats_iff W.classes).mpr (by decide +kernel)⟩,
    (wire demoTopUT [-62, 1]), asRead .u8 demoTopUT, by decide +kernel, by decide +kernel, by decide +kernel,
    by decide +kernel⟩

/-- Outside the exact statistics: after `record(u64::MAX)` alone `max()` is `u64::MAX`, the round trip answers
`u64::MAX - 1`. -/
theorem C36_max_refuted :
    demoTop.recordN U64MAX 1 = .ok (demoTop1, .ok ()) ∧ demoTop1.max = .ok U64MAX ∧
    ∃ bytes g, serialize (fun _ => 0) demoTop1 = .ok (.ok (bytes, bytes.length)) ∧
      deserialize Fp.ideal Zlib.stored .u8 true bytes = .ok (.ok (g, [])) ∧ g.max = .ok (U64MAX - 1) ∧
      demoTop1.eq g = .ok false :=
  ⟨demoTop1_eq, by decide +kernel, wire demoTop1 [-64, 1], asRead .u8 demoTop1, by decide +kernel, by decide +kernel,
    by decide +kernel, by decide +kernel⟩

/-- `demoU` after `record(0)` -/
def demoU0 : Hist .u64 := { demoU with totalCount := 1, counts := [1, 0, 0, 0, 0, 0, 0] }

/-- With unit 4, recording only zeros leaves `max()` at 0; after the round trip it is 3. -/
theorem C36_zeros_refuted :
    demoU.recordN 0 1 = .ok (demoU0, .ok ()) ∧ demoU0.max = .ok 0 ∧
    ∃ bytes g, serialize (fun _ => 0) demoU0 = .ok (.ok (bytes, bytes.length)) ∧
      deserialize Fp.ideal Zlib.stored .u64 true bytes = .ok (.ok (g, [])) ∧ g.max = .ok 3 ∧
      demoU0.eq g = .ok false :=
  ⟨by decide +kernel, by decide +kernel, wire demoU0 [1], asRead .u64 demoU0, by decide +kernel, by decide +kernel,
    by decide +kernel, by decide +kernel⟩

/-- With unit 4, an empty histogram after `reset()` answers 3 to `max()`; its round trip answers 0. -/
theorem C36_reset_refuted :
    demoU.reset.max = .ok 3 ∧
    ∃ bytes g, serialize (fun _ => 0) demoU.reset = .ok (.ok (bytes, bytes.length)) ∧
      deserialize Fp.ideal Zlib.stored .u64 true bytes = .ok (.ok (g, [])) ∧ g.max = .ok 0 ∧
      demoU.reset.eq g = .ok false :=
  ⟨by decide +kernel, wire demoU.reset [0], asRead .u64 demoU.reset, by decide +kernel, by decide +kernel,
    by decide +kernel, by decide +kernel⟩

/-! ## C37 -/

/-- C37 (1): compiled without overflow checks, deserializing any bytes with any zlib returns `Ok` or an error. (In the
model a panic, an out-of-bounds access and a loop that does not end are all `.error`.) -/
theorem C37_total (fp : Fp) (z : Zlib) (T : CounterTy) (bytes : List UInt8) :
    ∃ x, deserialize fp z T false bytes = .ok x := by
  obtain ⟨x, e, -⟩ := deserialize_spec fp z T false bytes (by simp) (by simp)
  exact ⟨x, e⟩

/-- C37 (2) (partial, see `C37_refuted`): with overflow checks the same holds of every byte string in which neither the
bytes themselves nor anything inflated from part of them has nine consecutive `0xFF`. -/
theorem C37_total_checked_partial (fp : Fp) (z : Zlib) (T : CounterTy) (bytes : List UInt8)
    (h1 : ¬ List.replicate 9 0xFF <:+: bytes) (h2 : ∀ c, c <:+: bytes → ¬ List.replicate 9 0xFF <:+: z.inflate c) :
    ∃ x, deserialize fp z T true bytes = .ok x := by
  obtain ⟨x, e, -⟩ := deserialize_spec fp z T true bytes (fun _ => h1) (fun _ => h2)
  exact ⟨x, e⟩

/-- C37 (3): overflow checks only add panics; they never change an answer. -/
theorem C37_checks_agree (fp : Fp) (z : Zlib) (T : CounterTy) (bytes : List UInt8) {x}
    (e : deserialize fp z T true bytes = .ok x) : deserialize fp z T false bytes = .ok x := deserialize_mono e

/-- a header for `low = 1`, `high = 15`, `sigfig = 0` and the payload `p` -/
def demoBytes (p : List UInt8) : List UInt8 :=
  be32 COOKIE ++ be32 p.length ++ be32 0 ++ be32 0 ++ be64 1 ++ be64 15 ++ be64 ONE_BITS ++ p

/-- C37 is false with overflow checks compiled in: nine `0xFF` bytes decode to `i64::MIN`, whose negation overflows.
Without the checks the same bytes are rejected. -/
theorem C37_refuted : deserialize Fp.ideal Zlib.stored .u8 true (demoBytes (List.replicate 9 0xFF)) = .error .overflow ∧
    deserialize Fp.ideal Zlib.stored .u8 false (demoBytes (List.replicate 9 0xFF)) = .ok (.error .UsizeTypeTooSmall) := by
  decide +kernel

/-- bytes within the hypotheses of `C37_total_checked_partial` -/
example : ¬ List.replicate 9 0xFF <:+: demoBytes [2, 3, 6, 144, 3] ∧
    ∀ c, c <:+: demoBytes [2, 3, 6, 144, 3] → ¬ List.replicate 9 0xFF <:+: Zlib.stored.inflate c := by
  have h : ¬ List.replicate 9 0xFF <:+: demoBytes [2, 3, 6, 144, 3] := by
    intro h
    have : (0xFF : UInt8) ∈ demoBytes [2, 3, 6, 144, 3] := h.subset (by decide)
    revert this; decide +kernel
  exact ⟨h, fun c hc h' => h (h'.trans hc)⟩

/-! ## C38 -/

theorem beBytes_beVal (p : List UInt8) : beBytes p.length (beVal p) = p := by
  have : ∀ (p : List UInt8) (a : Nat), beBytes p.length (p.foldl (fun acc b => acc * 256 + b.toNat) a) = p := by
    intro p
    induction p with
    | nil => intro a; rfl
    | cons b p ih =>
      intro a
      show asU8 (_ / 256 ^ p.length) :: beBytes p.length _ = b :: p
      rw [List.foldl_cons, ih]
      congr 1
      have hv : ∀ (p : List UInt8) (a : Nat), p.foldl (fun acc b => acc * 256 + b.toNat) a = a * 256 ^ p.length + beVal p := by
        intro p
        induction p with
        | nil => intro a; simp [beVal]
        | cons c p ih2 =>
          intro a
          have h0 : beVal (c :: p) = List.foldl (fun acc b => acc * 256 + b.toNat) (0 * 256 + c.toNat) p := rfl
          rw [List.foldl_cons, ih2, h0, ih2, List.length_cons, pow_succ]
          ring
      rw [hv]
      have hlt := beVal_lt p
      rw [Nat.add_comm, Nat.add_mul_div_right _ _ (by positivity), Nat.div_eq_of_lt hlt, Nat.zero_add]
      apply UInt8.toNat_inj.mp
      rw [asU8_toNat]
      have := b.toNat_lt
      omega
  exact this p 0

theorem readBE_exact {n x : Nat} {r r' : List UInt8} (h : readBE n r = some (x, r')) : r = beBytes n x ++ r' := by
  unfold readBE readN at h
  split at h
  · rename_i hn
    simp only [Option.map_some, Option.some.injEq, Prod.mk.injEq] at h
    obtain ⟨rfl, rfl⟩ := h
    have h1 : (r.take n).length = n := by rw [List.length_take]; omega
    have h2 := beBytes_beVal (r.take n)
    rw [h1] at h2
    rw [h2, List.take_append_drop]
  · simp at h

theorem readHeader_exact {r : List UInt8} {hd : Header} (h : readHeader r = .ok hd) :
    r = be32 hd.payloadLen ++ be32 0 ++ be32 hd.digits ++ be64 hd.low ++ be64 hd.high ++ be64 ONE_BITS ++ hd.rest := by
  unfold readHeader at h
  cases h1 : readBE 4 r with
  | none => rw [h1] at h; simp at h
  | some p1 =>
  obtain ⟨n1, r1⟩ := p1
  rw [h1] at h; simp only at h
  cases h2 : readBE 4 r1 with
  | none => rw [h2] at h; simp at h
  | some p2 =>
  obtain ⟨n2, r2⟩ := p2
  rw [h2] at h; simp only at h
  split at h
  · simp at h
  rename_i hoff
  cases h3 : readBE 4 r2 with
  | none => rw [h3] at h; simp at h
  | some p3 =>
  obtain ⟨n3, r3⟩ := p3
  rw [h3] at h; simp only at h
  split at h
  · simp at h
  cases h4 : readBE 8 r3 with
  | none => rw [h4] at h; simp at h
  | some p4 =>
  obtain ⟨n4, r4⟩ := p4
  rw [h4] at h; simp only at h
  cases h5 : readBE 8 r4 with
  | none => rw [h5] at h; simp at h
  | some p5 =>
  obtain ⟨n5, r5⟩ := p5
  rw [h5] at h; simp only at h
  cases h6 : readBE 8 r5 with
  | none => rw [h6] at h; simp at h
  | some p6 =>
  obtain ⟨n6, r6⟩ := p6
  rw [h6] at h; simp only at h
  split at h
  · simp at h
  rename_i hr
  injection h with h; subst h
  have h0 : n2 = 0 := by omega
  have h7 : n6 = ONE_BITS := by omega
  subst h0; subst h7
  rw [readBE_exact h1, readBE_exact h2, readBE_exact h3, readBE_exact h4, readBE_exact h5, readBE_exact h6]
  simp only [be32, be64, List.append_assoc]

/-- A V2 message: `bytes` starts with the cookie and a header carrying `low`, `high` and `sigfig`, followed by a payload of
the declared length; `rest` is what follows. -/
def Message (bytes : List UInt8) (low high sigfig : Nat) (rest : List UInt8) : Prop :=
  ∃ payload : List UInt8, bytes = be32 COOKIE ++ be32 payload.length ++ be32 0 ++ be32 sigfig ++ be64 low ++ be64 high
    ++ be64 ONE_BITS ++ payload ++ rest

theorem deserV2_header {checks : Bool} {r rest : List UInt8} {h : Hist T}
    (e : deserV2 fp T checks r = .ok (.ok (h, rest))) :
    ∃ payload : List UInt8, r = be32 payload.length ++ be32 0 ++ be32 h.sigfig ++ be64 h.low ++ be64 h.high
    ++ be64 ONE_BITS ++ payload ++ rest := by
  have e' : deserV2 fp T false r = .ok (.ok (h, rest)) := by
    cases checks with
    | false => exact e
    | true => exact deserV2_mono e
  obtain ⟨x, e2, hx⟩ := deserV2_spec fp T false r (by simp)
  rw [e'] at e2
  injection e2 with e2
  obtain ⟨-, -, -, hd, h1, h2, h3, h4, payload, h5, h6⟩ := hx h rest e2.symm
  refine ⟨payload, ?_⟩
  have := readHeader_exact h1
  rw [this, h6, h5]
  show _ = be32 hd.payloadLen ++ be32 0 ++ be32 h.sigDigits ++ be64 h.lowestDiscernible ++ be64 h.highestTrackable
    ++ be64 ONE_BITS ++ payload ++ rest
  rw [h2, h3, h4]
  simp only [List.append_assoc]

/-- C38 (1): `low()`, `high()` and `sigfig()` of a histogram returned by `deserialize` are those of the header it was read
from, and what is left of the stream is what followed the message. For a compressed message this is said of the inflated
payload, whose compressed form has at most the declared length. -/
theorem C38_header {z : Zlib} {checks : Bool} {bytes rest : List UInt8} {h : Hist T}
    (e : deserialize fp z T checks bytes = .ok (.ok (h, rest))) :
    Message bytes h.low h.high h.sigfig rest ∨
    ∃ n body left, bytes = be32 COMPRESSED_COOKIE ++ be32 n ++ body ∧
      Message (z.inflate (body.take n)) h.low h.high h.sigfig left ∧ rest <:+ body := by
  unfold deserialize at e
  cases h1 : readBE 4 bytes with
  | none => rw [h1] at e; simp [pure, Except.pure] at e
  | some p =>
    obtain ⟨cookie, r1⟩ := p
    rw [h1] at e
    simp only at e
    split at e
    · rename_i hc
      left
      obtain ⟨payload, hp⟩ := deserV2_header e
      refine ⟨payload, ?_⟩
      rw [readBE_exact h1, hc, hp]
      simp only [be32, be64, List.append_assoc]
    · split at e
      · rename_i hc
        right
        unfold deserV2Compressed at e
        cases h2 : readBE 4 r1 with
        | none => rw [h2] at e; simp [pure, Except.pure] at e
        | some p2 =>
          obtain ⟨n, r2⟩ := p2
          rw [h2] at e
          simp only at e
          cases h3 : readBE 4 (z.inflate (r2.take n)) with
          | none => rw [h3] at e; simp [pure, Except.pure] at e
          | some p3 =>
            obtain ⟨c3, r3⟩ := p3
            rw [h3] at e
            simp only at e
            split at e
            · simp [pure, Except.pure] at e
            rename_i hc3
            rw [M.bind_eq_ok] at e
            obtain ⟨y, h4, h5⟩ := e
            cases y with
            | error x => simp [pure, Except.pure] at h5
            | ok w =>
              obtain ⟨h', left⟩ := w
              simp only [pure, Except.pure, Except.ok.injEq, Prod.mk.injEq] at h5
              obtain ⟨rfl, rfl⟩ := h5
              obtain ⟨payload, hp⟩ := deserV2_header h4
              have hc3' : c3 = COOKIE := by by_contra hx; exact hc3 hx
              refine ⟨n, r2, left, ?_, ⟨payload, ?_⟩, List.drop_suffix _ _⟩
              · rw [readBE_exact h1, hc, readBE_exact h2]
                simp only [be32, List.append_assoc]
              · rw [readBE_exact h3, hc3', hp]
                simp only [be32, be64, List.append_assoc]
      · simp [pure, Except.pure] at e

/-- C38 (2): whatever the bytes, a histogram returned by `deserialize` has a configuration the constructor accepts and
the array length, counter bounds and layout that go with it (so every theorem about reachable histograms applies to it),
does not resize itself, and its statistics are those of its counts: `len()` is the saturated sum, `min_nz()` the start of
the first non-empty class other than that of zero, `max()` the end of the last non-empty class — except that, with a unit
above 1, a last class reaching `u64::MAX` is reported as `u64::MAX` where `highest_equivalent` says `u64::MAX - 1`. -/
theorem C38_valid {z : Zlib} {checks : Bool} {bytes rest : List UInt8} {h : Hist T}
    (e : deserialize fp z T checks bytes = .ok (.ok (h, rest))) {cs : List Cls} (C : Classes h cs) :
    Reachable fp T h ∧ h.isAutoResize = false ∧
    (∃ h0 : Hist T, Hist.newWithBounds fp T h.low h.high h.sigfig = .ok (.ok h0) ∧
      h = { h0 with counts := h.counts, maxValue := h.maxValue, minNonZero := h.minNonZero, totalCount := h.totalCount } ∧
      h.counts.length = h0.counts.length) ∧
    (∀ c ∈ cs, c.count ≤ T.max) ∧
    (ExactStats h cs ∨ (h.max = .ok U64MAX ∧ h.unitMag ≠ 0 ∧ h.len = min (cs.map (·.count)).sum U64MAX ∧
      ∃ c ∈ cs, c.count ≠ 0 ∧ c.hi = U64MAX - 1)) := by
  obtain ⟨W, ⟨g, hg, Wg⟩, ha⟩ := deserialize_valid e
  refine ⟨.deserialize z checks bytes rest e, ha, ⟨_, W.new_eq T, ?_, ?_⟩, ?_, ?_⟩
  · have h1 := (W.fresh_eq T).1
    have h2 := congrArg (fun k : Hist T => ({ k with maxValue := h.maxValue, minNonZero := h.minNonZero, totalCount := h.totalCount } : Hist T)) h1
    simp only [retype_self] at h2
    refine Eq.trans ?_ h2.symm
    rw [← ha]
  · rw [(W.fresh_eq T).2, List.length_replicate]
  · intro c hc
    obtain ⟨i, hi, rfl⟩ := (W.mem_classes C).mp hc
    exact W.getD_le i
  · have W' : WF fp (decoded g) := hg ▸ W
    have hlen : h.totalCount = min h.counts.sum U64MAX := by rw [hg]; rfl
    have hmin : h.lminNz = h.scanMin := by rw [hg]; exact decoded_lminNz
    rcases decoded_lmax W' with hm | ⟨hm1, hm2, i, hm3, hm4⟩
    · left
      refine (W.exactStats_iff C).mpr ⟨hlen, ?_, hmin⟩
      rw [hg]; exact hm
    · right
      have hl := lastNz_spec g.counts 0
      rw [hm3] at hl
      simp only [Nat.sub_zero, Nat.zero_add] at hl
      have hcnt : g.counts = h.counts := by rw [hg]; rfl
      refine ⟨?_, ?_, ?_, h.lcls i, (W.mem_classes C).mpr ⟨i, ?_, rfl⟩, ?_, ?_⟩
      · rw [W.max_eq]; exact congrArg _ ((congrArg Hist.lmax hg).trans hm1)
      · rw [hg]; exact hm2
      · show h.totalCount = _
        rw [hlen, W.sum_classes C]
      · rw [← hcnt]
        by_contra hc; exact hl.2.2.1 (getD_ge (by omega))
      · show h.counts.getD i 0 ≠ 0
        rw [← hcnt]; exact hl.2.2.1
      · show h.lhi (h.lval i) = _
        rw [hg]; exact hm4

/-- an encoding that is accepted: the bytes of `demo3`, followed by two more -/
example : (deserialize Fp.ideal Zlib.stored .u8 true (demoBytes [2, 3, 6, 144, 3] ++ [7, 8])).toOption.map
    (fun x => x.toOption.map fun p => (p.1.counts, p.2)) = some (some ([1, 0, 0, 3, 200], [7, 8])) := by decide +kernel

/-! ## C40 -/

/-- `serialize` wrote `bytes` for `x` -/
def Encodes (x : AnyHist) (bytes : List UInt8) : Prop := ∃ junk, serialize junk x.h = .ok (.ok (bytes, bytes.length))

/-- Call `deserialize` once for each counter type listed, each call continuing where the previous one stopped, and
collect the histograms; stop at the first error. -/
def readAll (fp : Fp) (z : Zlib) (checks : Bool) : List CounterTy → List UInt8 →
    M (Except DeserializeError (List AnyHist × List UInt8))
  | [], r => .ok (.ok ([], r))
  | T :: Ts, r => do
    match ← deserialize fp z T checks r with
    | .error e => .ok (.error e)
    | .ok (g, r) =>
      match ← readAll fp z checks Ts r with
      | .error e => .ok (.error e)
      | .ok (gs, r) => .ok (.ok (⟨T, g⟩ :: gs, r))

/-- C40 (1): a stream holding the encodings of any number of histograms, one after the other and followed by anything,
is read back as exactly those histograms in order, and reading stops at the first byte after the last one. -/
theorem C40_self_delimiting (fp : Fp) (z : Zlib) (checks : Bool) (tail : List UInt8) :
    ∀ {xs : List AnyHist} {bs : List (List UInt8)}, (∀ x ∈ xs, Reachable fp x.T x.h) → List.Forall₂ Encodes xs bs →
      ∃ gs, readAll fp z checks (xs.map (·.T)) (bs.flatten ++ tail) = .ok (.ok (gs, tail)) ∧
        List.Forall₂ (fun x g => g.T = x.T ∧ Restored x.h g.h) xs gs := by
  intro xs bs hR hE
  induction hE with
  | nil => exact ⟨[], rfl, .nil⟩
  | @cons x b xs bs hxb _ ih =>
    obtain ⟨gs, hg, hF⟩ := ih fun y hy => hR y (by simp [hy])
    obtain ⟨junk, e⟩ := hxb
    have W := (hR x (by simp)).wf
    obtain ⟨ts, rfl, -, h1, h2, h3, -⟩ := wire_of_ok W e
    have d : deserialize fp z x.T checks (wire x.h ts ++ (bs.flatten ++ tail)) =
      .ok (.ok (asRead x.T x.h, bs.flatten ++ tail)) := deserialize_wire W z x.T checks h1 h2 h3 W.cmax _
    have Rg : Reachable fp x.T (asRead x.T x.h) := .deserialize z checks _ _ d
    refine ⟨⟨x.T, asRead x.T x.h⟩ :: gs, ?_, .cons ⟨rfl, decoded_restored W Rg.wf⟩ hF⟩
    show readAll fp z checks (x.T :: xs.map (·.T)) _ = _
    unfold readAll
    rw [List.flatten_cons, List.append_assoc, d, M.ok_bind]
    show (readAll fp z checks (xs.map (·.T)) (bs.flatten ++ tail) >>= _) = _
    rw [hg, M.ok_bind]

/-- C40 (2): every strict prefix of an encoding is an error, whatever type it is read as and with overflow checks on or
off. -/
theorem C40_truncated {h : Hist T} (R : Reachable fp T h) {bytes p q : List UInt8} (e : Encodes ⟨T, h⟩ bytes)
    (hp : bytes = p ++ q) (hq : q ≠ []) (z : Zlib) (T' : CounterTy) (checks : Bool) :
    ∃ x, deserialize fp z T' checks p = .ok (.error x) := by
  obtain ⟨junk, e⟩ := e
  obtain ⟨ts, rfl, -, -, -, -, h4⟩ := wire_of_ok R.wf e
  exact deserialize_prefix R.wf z T' checks h4 hp hq

/-- two histograms of different types in one stream -/
example : List.Forall₂ Encodes [⟨.u8, demo3⟩, ⟨.u64, demoU⟩] [wire demo3 [1, -2, 3, 200], wire demoU [0]] :=
  .cons ⟨fun _ => 0, by decide +kernel⟩ (.cons ⟨fun _ => 0, by decide +kernel⟩ .nil)

/-! ## C42 -/

/-- C42: with a zlib whose decompression inverts its compression (and consumes all of it, and whose output is at most
twice as long as its input plus 64 bytes), `serialize` of the V2+DEFLATE serializer succeeds exactly when the plain one
does; it writes the compressed cookie, the length of the compressed payload, and the compressed plain encoding, and
returns the number of bytes written. Reading it back, with anything following, gives the same histogram as reading
the plain encoding, and leaves what followed. -/
theorem C42_deflate {h : Hist T} (R : Reachable fp T h) {z : Zlib} (hz : z.Lawful) (junk : Nat → UInt8) :
    (∀ x, serialize junk h = .ok (.error x) → serializeDeflate z junk h = .ok (.error x)) ∧
    (∀ bytes n, serialize junk h = .ok (.ok (bytes, n)) →
      ∃ out, serializeDeflate z junk h = .ok (.ok (out, out.length)) ∧
        out = be32 COMPRESSED_COOKIE ++ be32 (z.deflate bytes).length ++ z.deflate bytes ∧
        (z.deflate bytes).length < 2 ^ 32 ∧
        ∀ (T' : CounterTy) (checks : Bool) (tail : List UInt8) {cs : List Cls}, Classes h cs →
          (∀ c ∈ cs, c.count ≤ T'.max) →
          ∃ g, deserialize fp z T' checks (bytes ++ tail) = .ok (.ok (g, tail)) ∧
            deserialize fp z T' checks (out ++ tail) = .ok (.ok (g, tail)) ∧ Restored h g) := by
  have W := R.wf
  obtain ⟨r, hr, hs, hd⟩ := serializeDeflate_spec W hz
  constructor
  · intro x e
    rw [hs junk] at e
    rw [hd junk]
    cases r with
    | none => exact e
    | some ts => cases e
  · intro bytes n e
    have hwire := wire_of_ok W e
    rw [hs junk] at e
    cases r with
    | none => cases e
    | some ts =>
      simp only [Except.ok.injEq, Prod.mk.injEq] at e
      obtain ⟨rfl, rfl⟩ := e
      obtain ⟨ts', w1, -, -, -, h3', h4'⟩ := hwire
      have hlt : (z.deflate (wire h ts)).length < 2 ^ 32 := by
        have h2 := hz.length_deflate (wire h ts)
        have h3 := wire_length h ts
        have h4 := enc_length ts
        have h5 := hr.2.2.1
        have hall : h.counts.length < 2 ^ 24 := lt_of_le_of_lt W.len_le_all (Lay.allSlots_lt W.mag17)
        have hc := W.maxcov
        norm_num at hall ⊢
        omega
      refine ⟨_, ?_, rfl, hlt, ?_⟩
      · rw [hd junk]
        simp only [List.length_append, be32, beBytes_length]
      · intro T' checks tail cs C hfit
        have hf : ∀ c ∈ h.counts, c ≤ T'.max := by
          intro c hc
          obtain ⟨i, hi, rfl⟩ := List.getElem_of_mem hc
          have := hfit (h.lcls i) ((W.mem_classes C).mpr ⟨i, hi, rfl⟩)
          have e1 : (h.lcls i).count = h.counts[i] := by
            show h.counts.getD i 0 = _
            rw [List.getD_eq_getElem?_getD, List.getElem?_eq_getElem hi]; rfl
          rw [e1] at this; exact this
        have d1 : deserialize fp z T' checks (wire h ts ++ tail) = .ok (.ok (asRead T' h, tail)) :=
          deserialize_wire W z T' checks hr.1 hr.2.1 hr.2.2.1 hf tail
        have d2 := deserialize_deflate W hz T' checks hr.1 hr.2.1 hr.2.2.1 hf tail
        have Rg : Reachable fp T' (asRead T' h) := .deserialize z checks _ _ d1
        exact ⟨asRead T' h, d1, d2, decoded_restored W Rg.wf⟩

/-- a lawful compressor -/
example : Zlib.stored.Lawful := ⟨fun _ => rfl, fun _ => rfl, fun bs => by show bs.length ≤ _; omega⟩

end Hdr
