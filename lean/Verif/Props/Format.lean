import Verif.Props.Wire
import Verif.Spec.Format

/-!
# C59–C61: the V2 encoding byte by byte
-/

namespace Hdr

open V2

variable {T : CounterTy} {fp : Fp}

theorem V2.bigEndian_eq (n x : Nat) : Format.bigEndian n x = beBytes n x := by
  unfold Format.bigEndian
  induction n with
  | zero => rfl
  | succ n ih =>
    rw [List.range_succ, List.reverse_append, List.map_append, ih]
    rfl

theorem V2.leb128_eq (k x : Nat) : Format.leb128 k x = leb k x := by
  induction k generalizing x with
  | zero => rfl
  | succ k ih => simp only [Format.leb128, leb, ih]

theorem V2.zigzag_eq {t : Int} (ht : Tok t) : Format.zigzag t = zigZagEncode t := by
  obtain ⟨a, b⟩ := ht
  unfold Format.zigzag
  by_cases h : 0 ≤ t
  · rw [if_pos h, zigZagEncode_nonneg h (by norm_num; omega)]
  · rw [if_neg h, zigZagEncode_neg (by omega) (by norm_num; omega)]

theorem V2.payload_eq {counts : List Nat} (ht : ∀ t ∈ Format.runs 0 counts, Tok t) :
    Format.payload counts = enc (Format.runs 0 counts) := by
  unfold Format.payload enc
  refine List.flatMap_congr fun t h => ?_
  unfold Format.number
  rw [zigzag_eq (ht t h), leb128_eq]

theorem V2.wire_v2 {h : Hist T} {counts : List Nat} (ht : ∀ t ∈ Format.runs 0 counts, Tok t) :
    wire h (Format.runs 0 counts) = Format.v2 h.low h.high h.sigfig counts := by
  unfold wire Format.v2
  rw [payload_eq ht]
  simp only [bigEndian_eq]
  rfl

/-- evaluation of `serialize` -/
theorem V2.serialize_eq {h : Hist T} (W : WF fp h) (junk : Nat → UInt8) :
    serialize junk h = .ok (if ∀ c ∈ h.counts.take (h.lidx h.maxValue + 1), c ≤ 9223372036854775807
      then .ok (Format.v2 h.low h.high h.sigfig (h.counts.take (h.lidx h.maxValue + 1)),
        (Format.v2 h.low h.high h.sigfig (h.counts.take (h.lidx h.maxValue + 1))).length)
      else .error .CountNotSerializable) := by
  obtain ⟨r, hr, hs⟩ := serialize_spec W
  rw [hs junk]
  have hcov := W.maxcov
  cases r with
  | none =>
    obtain ⟨j, h1, h2⟩ := hr
    rw [if_neg]
    intro hall
    have hj : j < h.counts.length := by omega
    rw [List.getD_eq_getElem?_getD, List.getElem?_eq_getElem hj] at h2
    have := hall h.counts[j] (List.mem_take_iff_getElem.mpr ⟨j, by omega, rfl⟩)
    simp only [Option.getD_some] at h2
    omega
  | some ts =>
    obtain ⟨-, h1, -, h2, h3⟩ := hr
    rw [if_pos]
    · have h1' : ∀ t ∈ Format.runs 0 (h.counts.take (h.lidx h.maxValue + 1)), Tok t := by rw [← h3]; exact h1
      rw [← wire_v2 h1', ← h3]
    · intro c hc
      obtain ⟨j, hj, rfl⟩ := List.mem_take_iff_getElem.mp hc
      have := h2 j (by omega)
      rwa [List.getD_eq_getElem?_getD, List.getElem?_eq_getElem (by omega)] at this

/-- the classes up to that of `max()` -/
theorem WF.classes_max {h : Hist T} (W : WF fp h) {cs : List Cls} (C : Classes h cs) :
    (cs.filter fun c => decide (c.lo ≤ h.lmax)).map (·.count) = h.counts.take (h.lidx h.maxValue + 1) := by
  have hc := W.maxcov
  rw [W.classes_unique C, List.filter_map, List.map_map]
  have : (List.range h.counts.length).filter ((fun c : Cls => decide (c.lo ≤ h.lmax)) ∘ h.lcls)
      = List.range (h.lidx h.maxValue + 1) := by
    apply List.Perm.eq_of_pairwise (le := (· < ·))
    · intro a b _ _ h1 h2; omega
    · exact (List.pairwise_lt_range).filter _
    · exact List.pairwise_lt_range
    · rw [List.perm_ext_iff_of_nodup ((List.nodup_range).filter _) List.nodup_range]
      intro k
      rw [List.mem_filter, List.mem_range, List.mem_range]
      simp only [Function.comp, decide_eq_true_eq]
      have e1 : (h.lcls k).lo ≤ h.lmax ↔ k ≤ h.lidx h.maxValue := by
        rw [← W.lidx_lmax]; exact Lay.val_le_iff
      rw [e1]; omega
  rw [this]
  apply List.ext_getElem
  · simp; omega
  · intro i h1 h2
    simp only [List.length_map, List.length_range] at h1
    simp only [List.getElem_map, List.getElem_range, Function.comp, List.getElem_take]
    show h.counts.getD i 0 = _
    rw [List.getD_eq_getElem?_getD, List.getElem?_eq_getElem (by omega)]; rfl

/-! ## C59 -/

/-- C59: the bytes `serialize` writes are those of the V2 format for the settings of the histogram and the counts of its
classes up to the one containing `max()`; their number is returned. -/
theorem C59_format {h : Hist T} (R : Reachable fp T h) {cs : List Cls} (C : Classes h cs)
    (hser : ∀ c ∈ cs, c.count ≤ 9223372036854775807) {m : Nat} (hm : h.max = .ok m) (junk : Nat → UInt8) :
    serialize junk h = .ok (.ok
      (Format.v2 h.low h.high h.sigfig ((cs.filter fun c => decide (c.lo ≤ m)).map (·.count)),
       (Format.v2 h.low h.high h.sigfig ((cs.filter fun c => decide (c.lo ≤ m)).map (·.count))).length)) := by
  have W := R.wf
  rw [W.max_eq] at hm
  cases hm
  rw [serialize_eq W, W.classes_max C, if_pos]
  intro c hc
  rw [← W.classes_max C] at hc
  obtain ⟨d, hd, rfl⟩ := List.mem_map.mp hc
  exact hser d (List.mem_filter.mp hd).1

/-- `demo3` holds 204 samples in 5 classes -/
example : serialize (fun _ => 0) demo3 = .ok (.ok (Format.v2 1 15 0 [1, 0, 0, 3, 200], 45)) ∧
    Format.v2 1 15 0 [1, 0, 0, 3, 200] =
      [0x1c, 0x84, 0x93, 0x13, 0, 0, 0, 5, 0, 0, 0, 0, 0, 0, 0, 0, 0, 0, 0, 0, 0, 0, 0, 1, 0, 0, 0, 0, 0, 0, 0, 15,
        0x3F, 0xF0, 0, 0, 0, 0, 0, 0, 2, 3, 6, 144, 3] := by decide +kernel

/-! ## C60 -/

/-- settings determine the layout, whatever the counter type -/
theorem WF.layout_eq {T' : CounterTy} {h : Hist T} {g : Hist T'} (W : WF fp h) (W' : WF fp g) (hl : h.low = g.low)
    (hh : h.high = g.high) (hs : h.sigfig = g.sigfig) :
    h.counts.length = g.counts.length ∧ h.unitMag = g.unitMag ∧ h.subBucketHalfCountMag = g.subBucketHalfCountMag := by
  have h1 := W.um
  have h2 := W'.um
  have h3 := W.mag
  have h4 := W'.mag
  have hl' : h.lowestDiscernible = g.lowestDiscernible := hl
  have hs' : h.sigDigits = g.sigDigits := hs
  have hh' : h.highestTrackable = g.highestTrackable := hh
  have hum : h.unitMag = g.unitMag := by rw [h1, h2, hl']
  have hmag : h.subBucketHalfCountMag = g.subBucketHalfCountMag := by rw [hs'] at h3; omega
  refine ⟨?_, hum, hmag⟩
  rw [W.len, W'.len, W.bc, W'.bc, hmag]
  unfold Hist.lbkt
  rw [hum, hmag, hh']

/-- C60: the encoding depends only on the settings, the counts and the class of `max()`: not on the counter type, the
capacity history, nor on whatever the buffers held. -/
theorem C60_canonical {T' : CounterTy} {h : Hist T} {g : Hist T'} (R : Reachable fp T h) (R' : Reachable fp T' g)
    (hl : h.low = g.low) (hh : h.high = g.high) (hs : h.sigfig = g.sigfig)
    (hc : ∀ v, v ≤ U64MAX → h.countAt v = g.countAt v) {m m' : Nat} (hm : h.max = .ok m) (hm' : g.max = .ok m')
    (he : Equiv h m m') (junk junk' : Nat → UInt8) : serialize junk h = serialize junk' g := by
  have W := R.wf
  have W' := R'.wf
  obtain ⟨e1, e2, e3⟩ := W.layout_eq W' hl hh hs
  have hidx : ∀ v, h.lidx v = g.lidx v := fun v => by unfold Hist.lidx; rw [e2, e3]
  have hval : ∀ i, h.lval i = g.lval i := fun v => by unfold Hist.lval; rw [e2, e3]
  rw [W.max_eq] at hm
  rw [W'.max_eq] at hm'
  cases hm; cases hm'
  rw [W.equiv_iff lmax_le lmax_le, W.lidx_lmax, hidx g.lmax, W'.lidx_lmax] at he
  have hcounts : h.counts = g.counts := by
    apply List.ext_getElem e1
    intro i h1 h2
    have h3 := hc (h.lval i) (W.lval_le' h1)
    rw [W.countAt_eq (W.lval_le' h1), W'.countAt_eq (W.lval_le' h1)] at h3
    have h4 : h.lidx (h.lval i) = i := Lay.idx_val
    rw [← hidx, h4, ← e1, show min i (h.counts.length - 1) = i by omega] at h3
    injection h3 with h3
    rw [List.getD_eq_getElem?_getD, List.getElem?_eq_getElem h1, List.getD_eq_getElem?_getD,
      List.getElem?_eq_getElem h2] at h3
    exact h3
  rw [serialize_eq W, serialize_eq W', hcounts, he, hl, hh, hs]

/-- C60: the encoding is injective: equal bytes mean equal settings and equal counts of all values. -/
theorem C60_injective {T' : CounterTy} {h : Hist T} {g : Hist T'} (R : Reachable fp T h) (R' : Reachable fp T' g)
    {junk junk' : Nat → UInt8} {bytes : List UInt8} {n n' : Nat} (e : serialize junk h = .ok (.ok (bytes, n)))
    (e' : serialize junk' g = .ok (.ok (bytes, n'))) :
    h.low = g.low ∧ h.high = g.high ∧ h.sigfig = g.sigfig ∧ ∀ v, v ≤ U64MAX → h.countAt v = g.countAt v := by
  have hfit : ∀ {T : CounterTy} {h : Hist T} (W : WF fp h), ∀ c ∈ (List.range h.counts.length).map h.lcls,
      c.count ≤ CounterTy.u64.max := by
    intro T h W c hc
    obtain ⟨i, hi, rfl⟩ := List.mem_map.mp hc
    have hi := List.mem_range.mp hi
    show h.counts.getD i 0 ≤ _
    rw [List.getD_eq_getElem?_getD, List.getElem?_eq_getElem hi]
    have h1 := W.cmax _ (List.getElem_mem hi)
    have h2 : T.max ≤ CounterTy.u64.max := by cases T <;> decide
    exact h1.trans h2
  obtain ⟨k, d, r, -⟩ := C36_round_trip R e Zlib.stored false .u64 R.wf.classes (hfit R.wf)
  obtain ⟨k', d', r', -⟩ := C36_round_trip R' e' Zlib.stored false .u64 R'.wf.classes (hfit R'.wf)
  rw [d] at d'
  cases d'
  exact ⟨r.low.symm.trans r'.low, r.high.symm.trans r'.high, r.sigfig.symm.trans r'.sigfig,
    fun v hv => (r.count v hv).symm.trans (r'.count v hv)⟩

/-- the slot of `max()` of what the deserializer returns is the last one with a count, or the first one -/
theorem decoded_idx {g : Hist T} (W : WF fp (V2.decoded g)) :
    (V2.decoded g).lidx (V2.decoded g).maxValue = (lastNz g.counts 0).getD 0 := by
  have L := W.toLayoutOK
  have hmv : (V2.decoded g).maxValue = V2.decMax g := rfl
  have hlast := lastNz_spec g.counts 0
  cases hn : lastNz g.counts 0 with
  | none =>
    rw [hmv]; unfold V2.decMax; rw [hn]
    exact Lay.idx_zero
  | some i =>
    rw [hn] at hlast
    simp only [Nat.sub_zero] at hlast
    have hi : i < (V2.decoded g).counts.length := hlast.2.1
    have hv := W.lval_le' hi
    have hmv2 : (V2.decoded g).maxValue = g.lhi (g.lval i) ||| g.unitMagMask := by
      rw [hmv]; unfold V2.decMax; rw [hn]
    rw [hmv2]
    have e1 : (V2.decoded g).lidx (g.lhi (g.lval i) ||| g.unitMagMask) = (V2.decoded g).lidx (g.lhi (g.lval i)) :=
      lidx_or_mask L _
    rw [e1]
    have e2 : (V2.decoded g).lidx ((V2.decoded g).lhi ((V2.decoded g).lval i)) = (V2.decoded g).lidx ((V2.decoded g).lval i) :=
      lidx_lhi hv
    have e3 : (V2.decoded g).lidx ((V2.decoded g).lval i) = i := Lay.idx_val
    rw [e3] at e2
    exact e2

/-! ## C61 -/

/-- C61: reading an encoding as a counter type succeeds exactly if the type holds all counts; otherwise the error is
`UnsuitableCounterType`, whatever follows in the stream and with overflow checks on or off. -/
theorem C61_counter_type {h : Hist T} (R : Reachable fp T h) {cs : List Cls} (C : Classes h cs) {junk : Nat → UInt8}
    {bytes : List UInt8} {n : Nat} (e : serialize junk h = .ok (.ok (bytes, n))) (z : Zlib) (checks : Bool) (T' : CounterTy)
    (tail : List UInt8) :
    ((∀ c ∈ cs, c.count ≤ T'.max) → ∃ g, deserialize fp z T' checks (bytes ++ tail) = .ok (.ok (g, tail))) ∧
    ((∃ c ∈ cs, T'.max < c.count) → deserialize fp z T' checks (bytes ++ tail) = .ok (.error .UnsuitableCounterType)) := by
  have W := R.wf
  obtain ⟨ts, rfl, -, h1, h2, h3, -⟩ := wire_of_ok W e
  refine ⟨fun hf => ?_, fun hf => ?_⟩
  · refine ⟨_, deserialize_wire W z T' checks h1 h2 h3 ?_ tail⟩
    intro c hc
    obtain ⟨i, hi, rfl⟩ := List.getElem_of_mem hc
    have := hf (h.lcls i) ((W.mem_classes C).mpr ⟨i, hi, rfl⟩)
    have e1 : (h.lcls i).count = h.counts[i] := by
      show h.counts.getD i 0 = _
      rw [List.getD_eq_getElem?_getD, List.getElem?_eq_getElem hi]; rfl
    rwa [e1] at this
  · refine deserialize_wire_fail W z T' checks h1 h2 h3 ?_ tail
    obtain ⟨c, hc, hlt⟩ := hf
    obtain ⟨i, hi, rfl⟩ := (W.mem_classes C).mp hc
    have e1 : (h.lcls i).count = h.counts[i] := by
      show h.counts.getD i 0 = _
      rw [List.getD_eq_getElem?_getD, List.getElem?_eq_getElem hi]; rfl
    exact ⟨_, List.getElem_mem hi, by rwa [e1] at hlt⟩

/-- the counts of `demo3` fit 8 bits and more; 300 samples in one class, read as `u8`, do not -/
def demo300 : Hist .u64 := { demoU with maxValue := 11, minNonZero := 8, totalCount := 300, counts := [0, 0, 300, 0, 0, 0, 0] }

theorem demo300_reachable : Reachable Fp.ideal .u64 demo300 :=
  reachable_recordSeq (l := [(9, 300)]) demoU_reachable (by decide) (r := .ok ()) (by decide +kernel)

/-! ## C60, continued -/

/-- C60: writing again what was read back gives the same bytes, if the class of `max()` holds samples, or there are none and
`max()` is in the class of 0. -/
theorem C60_reserialize_partial {h : Hist T} (R : Reachable fp T h) {cs : List Cls} (C : Classes h cs) {m : Nat}
    (hm : h.max = .ok m) (hx : (∃ n, HasCount h m n ∧ n ≠ 0) ∨ ((∀ c ∈ cs, c.count = 0) ∧ Equiv h m 0))
    {junk : Nat → UInt8} {bytes rest : List UInt8} {n : Nat} (e : serialize junk h = .ok (.ok (bytes, n))) {z : Zlib}
    {checks : Bool} {T' : CounterTy} {g : Hist T'} (d : deserialize fp z T' checks bytes = .ok (.ok (g, rest)))
    (junk' : Nat → UInt8) : serialize junk' g = .ok (.ok (bytes, n)) := by
  have W := R.wf
  by_cases hfit : ∃ c ∈ cs, T'.max < c.count
  · have := (C61_counter_type R C e z checks T' []).2 hfit
    rw [List.append_nil, d] at this
    cases this
  have Rg : Reachable fp T' g := .deserialize z checks _ _ d
  have es := e
  obtain ⟨ts, rfl, -, h1, h2, h3, -⟩ := wire_of_ok W e
  have hf : ∀ c ∈ h.counts, c ≤ T'.max := by
    intro c hc
    obtain ⟨i, hi, rfl⟩ := List.getElem_of_mem hc
    by_contra hlt
    refine hfit ⟨h.lcls i, (W.mem_classes C).mpr ⟨i, hi, rfl⟩, ?_⟩
    have e1 : (h.lcls i).count = h.counts[i] := by
      show h.counts.getD i 0 = _
      rw [List.getD_eq_getElem?_getD, List.getElem?_eq_getElem hi]; rfl
    rw [e1]; omega
  have d' := deserialize_wire W z T' checks h1 h2 h3 hf []
  rw [List.append_nil, d] at d'
  simp only [Except.ok.injEq, Prod.mk.injEq] at d'
  obtain ⟨rfl, -⟩ := d'
  have W' := Rg.wf
  have hlast := lastNz_spec h.counts 0
  have hidx := decoded_idx W'
  rw [W.max_eq] at hm
  cases hm
  have key : (lastNz h.counts 0).getD 0 = h.lidx h.maxValue := by
    rcases hx with ⟨k, hk, hk0⟩ | ⟨hz, hq⟩
    · rw [W.hasCount_iff lmax_le, W.lidx_lmax] at hk
      cases hn : lastNz h.counts 0 with
      | none => rw [hn] at hlast; exact absurd (hk.trans (hlast _)) hk0
      | some j =>
        rw [hn] at hlast
        simp only [Nat.sub_zero, Nat.zero_add] at hlast
        have a1 := hlast.2.2.2 (h.lidx h.maxValue) (fun q => hk0 (hk.trans q))
        have a2 := W.trackMax j hlast.2.2.1
        show j = _
        omega
    · rw [W.equiv_iff lmax_le (Nat.zero_le _), W.lidx_lmax, show h.lidx 0 = 0 from Lay.idx_zero] at hq
      rw [hq]
      cases hn : lastNz h.counts 0 with
      | none => rfl
      | some j =>
        rw [hn] at hlast
        simp only [Nat.sub_zero, Nat.zero_add] at hlast
        have hmem : h.lcls j ∈ cs := (W.mem_classes C).mpr ⟨j, hlast.2.1, rfl⟩
        exact absurd (hz _ hmem) hlast.2.2.1
  have hidx' : (V2.decoded ({ h.retype T' with autoResize := false } : Hist T')).lidx
      (V2.decoded ({ h.retype T' with autoResize := false } : Hist T')).maxValue = h.lidx h.maxValue := hidx.trans key
  rw [serialize_eq W']
  rw [serialize_eq W] at es
  rw [hidx']
  exact es

/-- `demo3`: 200 samples in the class of its maximum; read as `u32` and written again -/
example : demo3.max = .ok 15 ∧ HasCount demo3 15 200 ∧
    (deserialize Fp.ideal Zlib.stored .u32 true (Format.v2 1 15 0 [1, 0, 0, 3, 200])).toOption.bind
      (fun x => x.toOption.bind fun p => (serialize (fun _ => 7) p.1).toOption.bind Except.toOption) =
      some (Format.v2 1 15 0 [1, 0, 0, 3, 200], 45) :=
  ⟨by decide, Or.inl (by decide +kernel), by decide +kernel⟩

/-- The condition is needed: after `record_n(9, 0)` the class of `max()` is empty; its encoding has the zero counts up to there,
and what is read back is written without them. -/
theorem C60_refuted : ∃ h bytes bytes' g, demo.recordN 9 0 = .ok (h, .ok ()) ∧
    serialize (fun _ => 0) h = .ok (.ok (bytes, bytes.length)) ∧
    deserialize Fp.ideal Zlib.stored .u8 true bytes = .ok (.ok (g, [])) ∧
    serialize (fun _ => 0) g = .ok (.ok (bytes', bytes'.length)) ∧ bytes ≠ bytes' :=
  ⟨{ demo with maxValue := 9, minNonZero := 9 }, Format.v2 1 15 0 [0, 0, 0, 0, 0], Format.v2 1 15 0 [0], demo,
    by decide +kernel, by decide +kernel, by decide +kernel, by decide +kernel, by decide +kernel⟩

/-- read as `u8`, `demo300` fails; read as `u16` it does not -/
example : serialize (fun _ => 0) demo300 = .ok (.ok (Format.v2 4 200 0 [0, 0, 300], 43)) ∧
    (deserialize Fp.ideal Zlib.stored .u8 true (Format.v2 4 200 0 [0, 0, 300])).toOption.map
      (fun x => x.toOption.map fun p => p.1.counts) = some none ∧
    (deserialize Fp.ideal Zlib.stored .u16 true (Format.v2 4 200 0 [0, 0, 300])).toOption.map
      (fun x => x.toOption.map fun p => p.1.counts) = some (some [0, 0, 300, 0, 0, 0, 0]) := by
  decide +kernel

end Hdr
