import Verif.Proofs.Deserialize

/-!
# Totality and validity of the deserializer; the V2 round trip
-/

namespace Hdr.V2

variable {T : CounterTy} {fp : Fp}

theorem fresh_counts (low high sigfig : Nat) :
    (Hist.fresh fp T low high sigfig).counts =
      List.replicate (Hist.fresh fp T low high sigfig).counts.length 0 := by
  unfold Hist.fresh Hist.resized
  rw [vecResize_grow (by simp [Hist.blank])]
  simp [Hist.blank]

theorem WFc_counts {h : Hist T} (W : WFc fp h) {cs : List Nat} (hl : cs.length = h.counts.length)
    (hc : ∀ c ∈ cs, c ≤ T.max) : WFc fp ({ h with counts := cs } : Hist T) :=
  have L := W.toLayoutOK
  { (⟨L.sbc, L.half, L.mag17, L.sum62, L.lzb, L.mask, L.ummask⟩ : LayoutOK { h with counts := cs }) with
    sig5 := W.sig5, mag := W.mag, low1 := W.low1, low63 := W.low63, highlow := W.highlow,
    highmax := W.highmax, um := W.um, bc := W.bc, len := hl.trans W.len, cmax := hc }

theorem dinv_init {h : Hist T} (W : WF fp h) (hz : ∀ i, h.counts.getD i 0 = 0) :
    DInv h (⟨0, Hist.RestatState.new, h⟩ : DecodeState T) :=
  ⟨rfl, rfl, fun j _ => hz j, W.cmax, (restatLoop_zeros _ _ _ hz).symm⟩

theorem decode_finish {h : Hist T} (W : WF fp h) (hmax : h.maxValue = 0) (hmin : h.minNonZero = U64MAX)
    {s : DecodeState T} (I : DInv h s) :
    s.restat.updateHistogram s.h = .ok (decoded s.h) ∧ WFc fp s.h := by
  have Wc : WFc fp s.h := by
    rw [I.cfg]; exact WFc_counts W.toWFc I.len I.cmax
  refine ⟨?_, Wc⟩
  rw [I.rs]
  refine updateHistogram_eq Wc.toLayoutOK Wc.len_le_all ?_ ?_
  · rw [I.cfg]; exact hmax
  · rw [I.cfg]; exact hmin

theorem decodePayload_spec (checks : Bool) {h : Hist T} (W : WF fp h) (hz : ∀ i, h.counts.getD i 0 = 0)
    (hmax : h.maxValue = 0) (hmin : h.minNonZero = U64MAX)
    (payload : List UInt8) (hp : checks = true → ¬ poison <:+: payload) :
    ∃ x, decodePayload checks h payload = .ok x ∧
      ∀ h', x = .ok h' → ∃ g : Hist T, h' = decoded g ∧ WFc fp g ∧ g = { h with counts := g.counts }
        ∧ g.counts.length = h.counts.length := by
  rw [decodePayload_eq checks h payload (payload.length + 1) (by omega)]
  obtain ⟨x, e, hx⟩ := slowLoop_spec checks payload.length payload _ (payload.length + 1) le_rfl (by omega)
    (dinv_init W hz) hp
  rw [e, M.ok_bind]
  cases x with
  | error e => exact ⟨_, rfl, fun h' hh => by simp at hh⟩
  | ok s =>
    have I := hx s rfl
    obtain ⟨e2, Wc⟩ := decode_finish W hmax hmin I
    simp only
    rw [e2, M.ok_bind]
    refine ⟨_, rfl, fun h' hh => ?_⟩
    simp only [Except.ok.injEq] at hh
    exact ⟨s.h, hh.symm, Wc, I.cfg, I.len⟩

theorem fresh_getD (low high sigfig i : Nat) : (Hist.fresh fp T low high sigfig).counts.getD i 0 = 0 := by
  rw [fresh_counts, List.getD_eq_getElem?_getD, List.getElem?_replicate]; split <;> rfl

theorem readHeader_ok {r : List UInt8} {hd : Header} (h : readHeader r = .ok hd) :
    hd.digits ≤ 255 ∧ hd.low ≤ U64MAX ∧ hd.high ≤ U64MAX ∧ ∃ p, p.length = 36 ∧ r = p ++ hd.rest := by
  unfold readHeader at h
  cases h1 : readBE 4 r with
  | none => rw [h1] at h; simp at h
  | some p1 =>
  obtain ⟨n1, r1⟩ := p1
  rw [h1] at h; simp only at h
  cases h2 : readBE 4 r1 with
  | none => rw [h2] at h; simp at h
  | some p2 =>
  obtain ⟨n2, r2⟩ := p2
  rw [h2] at h; simp only at h
  split at h
  · simp at h
  cases h3 : readBE 4 r2 with
  | none => rw [h3] at h; simp at h
  | some p3 =>
  obtain ⟨n3, r3⟩ := p3
  rw [h3] at h; simp only at h
  split at h
  · simp at h
  rename_i hdig
  cases h4 : readBE 8 r3 with
  | none => rw [h4] at h; simp at h
  | some p4 =>
  obtain ⟨n4, r4⟩ := p4
  rw [h4] at h; simp only at h
  cases h5 : readBE 8 r4 with
  | none => rw [h5] at h; simp at h
  | some p5 =>
  obtain ⟨n5, r5⟩ := p5
  rw [h5] at h; simp only at h
  cases h6 : readBE 8 r5 with
  | none => rw [h6] at h; simp at h
  | some p6 =>
  obtain ⟨n6, r6⟩ := p6
  rw [h6] at h; simp only at h
  split at h
  · simp at h
  simp only [Except.ok.injEq] at h
  subst h
  obtain ⟨-, q1, l1, e1⟩ := readBE_some h1
  obtain ⟨-, q2, l2, e2⟩ := readBE_some h2
  obtain ⟨-, q3, l3, e3⟩ := readBE_some h3
  obtain ⟨b4, q4, l4, e4⟩ := readBE_some h4
  obtain ⟨b5, q5, l5, e5⟩ := readBE_some h5
  obtain ⟨-, q6, l6, e6⟩ := readBE_some h6
  norm_num at b4 b5
  have hU : U64MAX = 18446744073709551615 := rfl
  refine ⟨by simp only; omega, by simp only; omega, by simp only; omega,
    q1 ++ q2 ++ q3 ++ q4 ++ q5 ++ q6, by simp only [List.length_append]; omega, ?_⟩
  simp only
  rw [e1, e2, e3, e4, e5, e6]
  simp only [List.append_assoc]

theorem poison_suffix {p r r' : List UInt8} (h : r = p ++ r') (hp : ¬ poison <:+: r) : ¬ poison <:+: r' :=
  fun hin => hp (h ▸ hin.trans (List.suffix_append p r').isInfix)

theorem poison_prefix {p r r' : List UInt8} (h : r = p ++ r') (hp : ¬ poison <:+: r) : ¬ poison <:+: p :=
  fun hin => hp (h ▸ hin.trans (List.prefix_append p r').isInfix)

/-- `deser_v2` on any bytes: no panic, and a returned histogram is valid. -/
theorem deserV2_spec (fp : Fp) (T : CounterTy) (checks : Bool) (r : List UInt8)
    (hp : checks = true → ¬ poison <:+: r) :
    ∃ x, deserV2 fp T checks r = .ok x ∧
      ∀ h rest, x = .ok (h, rest) → WF fp h ∧ (∃ g : Hist T, h = decoded g ∧ WFc fp g)
        ∧ h.autoResize = false
        ∧ ∃ hd, readHeader r = .ok hd ∧ h.sigDigits = hd.digits ∧ h.lowestDiscernible = hd.low
          ∧ h.highestTrackable = hd.high ∧ ∃ payload, hd.rest = payload ++ rest ∧ payload.length = hd.payloadLen := by
  unfold deserV2
  cases hh : readHeader r with
  | error e => exact ⟨_, rfl, fun h rest e => by simp at e⟩
  | ok hd =>
    obtain ⟨b1, b2, b3, p, hpl, hr⟩ := readHeader_ok hh
    simp only
    rw [newWithBounds_eq fp T b3, M.ok_bind]
    split
    · exact ⟨_, rfl, fun h rest e => by simp at e⟩
    rename_i h0 heq
    by_cases c1 : hd.low < 1
    · simp [c1] at heq
    by_cases c2 : U64MAX / 2 < hd.low
    · rw [if_neg c1, if_pos c2] at heq; simp at heq
    by_cases c3 : hd.high < 2 * hd.low
    · rw [if_neg c1, if_neg c2, if_pos c3] at heq; simp at heq
    by_cases c4 : 5 < hd.digits
    · rw [if_neg c1, if_neg c2, if_neg c3, if_pos c4] at heq; simp at heq
    by_cases c5 : 63 < fp.log2Floor hd.low + Hist.subBucketCountMag hd.digits
    · rw [if_neg c1, if_neg c2, if_neg c3, if_neg c4, if_pos c5] at heq; simp at heq
    rw [if_neg c1, if_neg c2, if_neg c3, if_neg c4, if_neg c5] at heq
    simp only [Except.ok.injEq] at heq
    subst heq
    have W : WF fp (Hist.fresh fp T hd.low hd.high hd.digits) :=
      fresh_wf (by omega) (by omega) (by omega) b3 (by omega) (by omega)
    cases hrn : readN hd.payloadLen hd.rest with
    | none => exact ⟨_, rfl, fun h rest e => by simp at e⟩
    | some q =>
      obtain ⟨payload, rest⟩ := q
      unfold readN at hrn
      split at hrn
      swap
      · simp at hrn
      rename_i hle
      simp only [Option.some.injEq, Prod.mk.injEq] at hrn
      obtain ⟨rfl, rfl⟩ := hrn
      simp only
      have hsplit := (List.take_append_drop hd.payloadLen hd.rest).symm
      obtain ⟨x, e, hx⟩ := decodePayload_spec checks W (fresh_getD _ _ _) rfl rfl
        (hd.rest.take hd.payloadLen) (fun hc => poison_prefix hsplit (poison_suffix hr (hp hc)))
      rw [e, M.ok_bind]
      cases x with
      | error e => exact ⟨_, rfl, fun h rest e => by simp at e⟩
      | ok h' =>
        refine ⟨_, rfl, fun h rest e => ?_⟩
        simp only [Except.ok.injEq, Prod.mk.injEq] at e
        obtain ⟨rfl, rfl⟩ := e
        obtain ⟨g, eg, Wg, cg, -⟩ := hx h' rfl
        refine ⟨eg ▸ decoded_wf Wg, ⟨g, eg, Wg⟩, ?_, hd, rfl, ?_, ?_, ?_, _, hsplit, ?_⟩
        · rw [eg, cg]; rfl
        · rw [eg, cg]; rfl
        · rw [eg, cg]; rfl
        · rw [eg, cg]; rfl
        · simp; omega

/-- `deserialize` on any bytes -/
theorem deserialize_spec (fp : Fp) (z : Zlib) (T : CounterTy) (checks : Bool) (r : List UInt8)
    (hp : checks = true → ¬ poison <:+: r)
    (hz : checks = true → ∀ c, c <:+: r → ¬ poison <:+: z.inflate c) :
    ∃ x, deserialize fp z T checks r = .ok x ∧
      ∀ h rest, x = .ok (h, rest) → WF fp h ∧ (∃ g : Hist T, h = decoded g ∧ WFc fp g)
        ∧ h.autoResize = false := by
  unfold deserialize
  cases h1 : readBE 4 r with
  | none => exact ⟨_, rfl, fun h rest e => by simp at e⟩
  | some p =>
    obtain ⟨cookie, r1⟩ := p
    obtain ⟨-, q1, l1, e1⟩ := readBE_some h1
    simp only
    split
    · obtain ⟨x, e, hx⟩ := deserV2_spec fp T checks r1 (fun hc => poison_suffix e1 (hp hc))
      exact ⟨x, e, fun h rest hh => ⟨(hx h rest hh).1, (hx h rest hh).2.1, (hx h rest hh).2.2.1⟩⟩
    split
    · unfold deserV2Compressed
      cases h2 : readBE 4 r1 with
      | none => exact ⟨_, rfl, fun h rest e => by simp at e⟩
      | some p2 =>
        obtain ⟨len, r2⟩ := p2
        obtain ⟨-, q2, l2, e2⟩ := readBE_some h2
        simp only
        cases h3 : readBE 4 (z.inflate (r2.take len)) with
        | none => exact ⟨_, rfl, fun h rest e => by simp at e⟩
        | some p3 =>
          obtain ⟨ck, inner⟩ := p3
          obtain ⟨-, q3, l3, e3⟩ := readBE_some h3
          simp only
          split
          · exact ⟨_, rfl, fun h rest e => by simp at e⟩
          obtain ⟨x, e, hx⟩ := deserV2_spec fp T checks inner (fun hc => poison_suffix e3 (hz hc _ (by
            rw [e1, e2, ← List.append_assoc]
            exact (List.take_prefix len r2).isInfix.trans (List.suffix_append _ r2).isInfix)))
          rw [e, M.ok_bind]
          cases x with
          | error e => exact ⟨_, rfl, fun h rest e => by simp at e⟩
          | ok w =>
            obtain ⟨h', rest'⟩ := w
            refine ⟨_, rfl, fun h rest e => ?_⟩
            simp only [Except.ok.injEq, Prod.mk.injEq] at e
            obtain ⟨rfl, rfl⟩ := e
            have := hx h' rest' rfl
            exact ⟨this.1, this.2.1, this.2.2.1⟩
    · exact ⟨_, rfl, fun h rest e => by simp at e⟩

/-! ### round trip -/

theorem set_replicate (P : List Nat) (k c : Nat) (hk : 0 < k) :
    (P ++ List.replicate k 0).set P.length c = P ++ [c] ++ List.replicate (k - 1) 0 := by
  obtain ⟨k, rfl⟩ : ∃ j, k = j + 1 := ⟨k - 1, by omega⟩
  rw [List.set_append_right _ _ le_rfl]
  simp [List.replicate_succ]

theorem restatLoop_append (l1 l2 : List Nat) (b : Nat) (s : Hist.RestatState) :
    Hist.restatLoop (l1 ++ l2) b s = Hist.restatLoop l2 (b + l1.length) (Hist.restatLoop l1 b s) := by
  induction l1 generalizing b s with
  | nil => rfl
  | cons x xs ih =>
    show Hist.restatLoop (xs ++ l2) (b + 1) _ = _
    rw [ih]
    simp only [List.length_cons]
    rw [show b + 1 + xs.length = b + (xs.length + 1) by omega]
    rfl

theorem restatLoop_replicate (k b : Nat) (s : Hist.RestatState) :
    Hist.restatLoop (List.replicate k 0) b s = s :=
  restatLoop_zeros _ _ _ fun j => by
    rw [List.getD_eq_getElem?_getD, List.getElem?_replicate]; split <;> rfl

/-- decoding one number appends the counts it stands for -/
theorem step_enc (checks : Bool) (h0 : Hist T) {t : Int} {P : List Nat} {k : Nat} (t1 : -9223372036854775808 < t)
    (hmax : ∀ c ∈ expand t, c ≤ T.max) (hlen : (expand t).length ≤ k) (hU : P.length + k ≤ U64MAX) :
    onDecodedNum checks (⟨P.length, Hist.restatLoop P 0 Hist.RestatState.new,
        { h0 with counts := P ++ List.replicate k 0 }⟩ : DecodeState T) t =
      .ok (.ok ⟨(P ++ expand t).length, Hist.restatLoop (P ++ expand t) 0 Hist.RestatState.new,
        { h0 with counts := P ++ expand t ++ List.replicate (k - (expand t).length) 0 }⟩) := by
  unfold onDecodedNum
  by_cases hneg : t < 0
  · have hx : expand t = List.replicate (-t).toNat 0 := by unfold expand; rw [if_pos hneg]
    rw [hx] at hlen ⊢
    rw [List.length_replicate] at hlen
    rw [if_pos hneg]
    unfold negI64
    rw [if_neg (by omega), M.ok_bind]
    unfold toUsize
    rw [if_pos (by omega)]
    simp only [advance]
    rw [if_pos (by omega), M.pure_eq, restatLoop_append, restatLoop_replicate,
      List.length_append, List.length_replicate, List.append_assoc, List.replicate_append_replicate]
    rw [show (-t).toNat + (k - (-t).toNat) = k by omega]
  · have hx : expand t = [t.toNat] := by unfold expand; rw [if_neg hneg]
    rw [hx] at hlen hmax ⊢
    have hm : t.toNat ≤ T.max := hmax _ (by simp)
    simp only [List.length_singleton] at hlen ⊢
    rw [if_neg hneg, M.pure_eq]
    unfold onCount
    rw [if_pos (by omega)]
    by_cases hpos : 0 < t
    · rw [if_pos hpos]
      unfold setCountAtIndex
      simp only [List.length_append, List.length_replicate]
      rw [if_pos (by omega)]
      simp only [advance]
      rw [if_pos (by omega), set_replicate _ _ _ (by omega), restatLoop_append, Nat.zero_add]
      simp only [Hist.restatLoop, List.length_singleton]
      rw [if_pos (by omega)]
    · rw [if_neg hpos]
      have ht : t = 0 := by omega
      subst ht
      simp only [advance]
      rw [if_pos (by omega), restatLoop_append]
      simp only [Int.toNat_zero, List.length_append, List.length_singleton]
      rw [List.append_assoc, show [0] ++ List.replicate (k - 1) 0 = List.replicate k 0 from by
        rw [show [0] = List.replicate 1 0 from rfl, List.replicate_append_replicate]; congr 1; omega]
      rfl

/-- decoding the numbers `ts` appends the counts they stand for -/
theorem slow_enc (checks : Bool) (h0 : Hist T) (ts : List Int) :
    ∀ (P : List Nat) (k : Nat) (f : Nat), (∀ t ∈ ts, Tok t) → (enc ts).length < f →
      (∀ c ∈ ts.flatMap expand, c ≤ T.max) → (ts.flatMap expand).length ≤ k → P.length + k ≤ U64MAX →
      slowLoop checks f (enc ts)
        ⟨P.length, Hist.restatLoop P 0 Hist.RestatState.new, ({ h0 with counts := P ++ List.replicate k 0 } : Hist T)⟩ =
      .ok (.ok ⟨(P ++ ts.flatMap expand).length, Hist.restatLoop (P ++ ts.flatMap expand) 0 Hist.RestatState.new,
        ({ h0 with counts := P ++ ts.flatMap expand ++ List.replicate (k - (ts.flatMap expand).length) 0 } : Hist T)⟩) := by
  induction ts with
  | nil =>
    intro P k f _ hf _ _ _
    obtain ⟨f, rfl⟩ : ∃ k, f = k + 1 := ⟨f - 1, by omega⟩
    simp [enc, slowLoop]
  | cons t ts ih =>
    intro P k f htok hf hmax hlen hU
    obtain ⟨f, rfl⟩ : ∃ k, f = k + 1 := ⟨f - 1, by omega⟩
    obtain ⟨t1, t2⟩ := htok t (by simp)
    have hb := leb_length 8 (zigZagEncode t)
    rw [enc_cons, List.length_append] at hf
    rw [enc_cons, slowLoop_succ, if_neg (by
      intro hn
      have := congrArg List.length hn
      rw [List.length_append] at this
      rw [List.length_nil] at this; omega), varintRead_eq,
      unleb_leb _ _ (by
        have := zigZagEncode_lt (n := t) (by omega) (by omega)
        norm_num at this ⊢; exact this)]
    simp only
    rw [zigZag_roundtrip (by omega) (by omega)]
    rw [List.flatMap_cons] at hmax hlen
    rw [List.length_append] at hlen
    have hstep := step_enc checks h0 (P := P) (k := k) t1 (fun c hc => hmax c (by simp [hc])) (by omega) hU
    rw [hstep, M.ok_bind]
    simp only
    have hml := hmax
    rw [ih (P ++ expand t) (k - (expand t).length) f (fun x hx => htok x (by simp [hx])) (by omega)
      (fun c hc => hml c (by simp [hc])) (by omega) (by rw [List.length_append]; omega)]
    simp only [List.flatMap_cons, List.append_assoc, List.length_append, Nat.sub_sub]

/-- a count too large for the counter type is refused -/
theorem slow_enc_fail (checks : Bool) (h0 : Hist T) (ts : List Int) :
    ∀ (P : List Nat) (k : Nat) (f : Nat), (∀ t ∈ ts, Tok t) → (enc ts).length < f →
      (∃ c ∈ ts.flatMap expand, T.max < c) → (ts.flatMap expand).length ≤ k → P.length + k ≤ U64MAX →
      slowLoop checks f (enc ts)
        ⟨P.length, Hist.restatLoop P 0 Hist.RestatState.new, ({ h0 with counts := P ++ List.replicate k 0 } : Hist T)⟩ =
      .ok (.error .UnsuitableCounterType) := by
  induction ts with
  | nil => intro P k f _ _ hc; simp at hc
  | cons t ts ih =>
    intro P k f htok hf hmax hlen hU
    obtain ⟨f, rfl⟩ : ∃ k, f = k + 1 := ⟨f - 1, by omega⟩
    obtain ⟨t1, t2⟩ := htok t (by simp)
    have hb := leb_length 8 (zigZagEncode t)
    rw [enc_cons, List.length_append] at hf
    rw [enc_cons, slowLoop_succ, if_neg (by
      intro hn
      have := congrArg List.length hn
      rw [List.length_append] at this
      rw [List.length_nil] at this; omega), varintRead_eq,
      unleb_leb _ _ (by
        have := zigZagEncode_lt (n := t) (by omega) (by omega)
        norm_num at this ⊢; exact this)]
    simp only
    rw [zigZag_roundtrip (by omega) (by omega)]
    rw [List.flatMap_cons] at hmax hlen
    rw [List.length_append] at hlen
    by_cases hfit : ∀ c ∈ expand t, c ≤ T.max
    · rw [step_enc checks h0 (P := P) (k := k) t1 hfit (by omega) hU, M.ok_bind]
      simp only
      obtain ⟨c, hc, hlt⟩ := hmax
      refine ih (P ++ expand t) (k - (expand t).length) f (fun x hx => htok x (by simp [hx])) (by omega) ⟨c, ?_, hlt⟩
        (by omega) (by rw [List.length_append]; omega)
      rcases List.mem_append.mp hc with h | h
      · exact absurd (hfit c h) (by omega)
      · exact h
    · have hbig : (T.max : Int) < t := by
        by_contra hle
        refine hfit fun c hc => ?_
        unfold expand at hc
        split at hc
        · rw [List.eq_of_mem_replicate hc]; omega
        · rw [List.mem_singleton.mp hc]; omega
      unfold onDecodedNum
      rw [if_neg (by omega), M.pure_eq, M.ok_bind]
      unfold onCount
      rw [if_neg (by omega)]
      rfl

/-- the same histogram data at another counter type -/
def _root_.Hdr.Hist.retype (T' : CounterTy) (h : Hist T) : Hist T' :=
  ⟨h.autoResize, h.highestTrackable, h.lowestDiscernible, h.sigDigits, h.bucketCount, h.subBucketCount,
    h.subBucketHalfCount, h.subBucketHalfCountMag, h.subBucketMask, h.leadingZeroCountBase, h.unitMag,
    h.unitMagMask, h.maxValue, h.minNonZero, h.totalCount, h.counts⟩

theorem retype_self (h : Hist T) : h.retype T = h := rfl

/-- the configuration of a valid histogram determines its layout -/
theorem _root_.Hdr.WF.fresh_eq {h : Hist T} (W : WF fp h) (T' : CounterTy) :
    ({ Hist.fresh fp T' h.lowestDiscernible h.highestTrackable h.sigDigits with counts := h.counts } : Hist T') =
      { h.retype T' with autoResize := false, maxValue := 0, minNonZero := U64MAX, totalCount := 0 } ∧
    (Hist.fresh fp T' h.lowestDiscernible h.highestTrackable h.sigDigits).counts =
      List.replicate h.counts.length 0 := by
  have hm := W.mag
  have hs := W.sum62
  have h1 : Hist.subBucketCountMag h.sigDigits - 1 = h.subBucketHalfCountMag := by omega
  have hb : (Hist.blank fp T' h.lowestDiscernible h.highestTrackable h.sigDigits).lbkt h.highestTrackable
      = h.lbkt h.highestTrackable := by
    unfold Hist.lbkt Hist.blank
    simp only [h1, ← W.um]
  refine ⟨?_, ?_⟩
  · unfold Hist.fresh Hist.resized
    simp only [hb]
    unfold Hist.blank Hist.retype
    simp only
    rw [h1, ← W.um, W.bc, W.sbc, W.half, W.mask, W.lzb, W.ummask, hm]
    congr 1
    omega
  · unfold Hist.fresh Hist.resized
    rw [vecResize_grow (by simp [Hist.blank]), hb]
    simp only [Hist.blank, List.nil_append, List.length_nil, Nat.sub_zero, h1]
    rw [W.len, W.bc]

theorem _root_.Hdr.WF.counts_split {h : Hist T} (W : WF fp h) :
    h.counts = h.counts.take (h.lidx h.maxValue + 1) ++
      List.replicate (h.counts.length - (h.lidx h.maxValue + 1)) 0 := by
  conv_lhs => rw [← List.take_append_drop (h.lidx h.maxValue + 1) h.counts]
  congr 1
  apply List.ext_getElem (by simp)
  intro i h1 h2
  simp only [List.getElem_drop, List.getElem_replicate]
  by_contra hne
  rw [List.length_drop] at h1
  have := W.trackMax (h.lidx h.maxValue + 1 + i) (by
    rw [List.getD_eq_getElem?_getD, List.getElem?_eq_getElem (by omega)]
    exact hne)
  omega

theorem readHeader_wire {h : Hist T} (W : WF fp h) {ts : List Int} (hl : (enc ts).length < 2 ^ 32)
    (tail : List UInt8) :
    readHeader (be32 (enc ts).length ++ (be32 0 ++ (be32 h.sigDigits ++ (be64 h.lowestDiscernible
      ++ (be64 h.highestTrackable ++ (be64 ONE_BITS ++ tail)))))) =
    .ok ⟨(enc ts).length, h.sigDigits, h.lowestDiscernible, h.highestTrackable, tail⟩ := by
  have hU : U64MAX = 18446744073709551615 := rfl
  have h1 := W.low63
  have h2 := W.highmax
  have h3 := W.sig5
  unfold readHeader be32 be64
  rw [readBE_be _ _ _ (by norm_num at hl ⊢; exact hl)]
  simp only
  rw [readBE_be _ _ _ (by norm_num)]
  simp only
  rw [readBE_be _ _ _ (by norm_num; omega)]
  simp only
  rw [if_neg (by omega), readBE_be _ _ _ (by norm_num; omega)]
  simp only
  rw [readBE_be _ _ _ (by norm_num; omega)]
  simp only
  rw [readBE_be _ _ _ (by norm_num [ONE_BITS])]
  simp
  omega

theorem wire_eq (h : Hist T) (ts : List Int) (tail : List UInt8) :
    wire h ts ++ tail = be32 COOKIE ++ (be32 (enc ts).length ++ (be32 0 ++ (be32 h.sigDigits
      ++ (be64 h.lowestDiscernible ++ (be64 h.highestTrackable ++ (be64 ONE_BITS ++ (enc ts ++ tail))))))) := by
  unfold wire
  simp only [List.append_assoc]

/-- the constructor accepts a valid histogram's configuration -/
theorem _root_.Hdr.WF.new_eq {h : Hist T} (W : WF fp h) (T' : CounterTy) :
    Hist.newWithBounds fp T' h.lowestDiscernible h.highestTrackable h.sigDigits =
      .ok (.ok (Hist.fresh fp T' h.lowestDiscernible h.highestTrackable h.sigDigits)) := by
  have := W.low1; have := W.low63; have := W.highlow; have := W.sig5; have := W.mag; have := W.sum62
  have := W.um
  rw [newWithBounds_eq fp T' W.highmax, if_neg (by omega), if_neg (by omega), if_neg (by omega),
    if_neg (by omega), if_neg (by omega)]

theorem _root_.Hdr.WF.freshOf_wf {h : Hist T} (W : WF fp h) (T' : CounterTy) :
    WF fp (Hist.fresh fp T' h.lowestDiscernible h.highestTrackable h.sigDigits) := by
  have := W.mag; have := W.sum62; have := W.um
  exact fresh_wf W.low1 W.low63 W.highlow W.highmax W.sig5 (by omega)

/-- The V2 round trip, with anything following. -/
theorem deserialize_wire {h : Hist T} (W : WF fp h) (z : Zlib) (T' : CounterTy) (checks : Bool)
    {ts : List Int} (hexp : ts.flatMap expand = h.counts.take (h.lidx h.maxValue + 1))
    (htok : ∀ t ∈ ts, Tok t) (hlen : ts.length ≤ h.lidx h.maxValue + 1)
    (hfit : ∀ c ∈ h.counts, c ≤ T'.max) (tail : List UInt8) :
    deserialize fp z T' checks (wire h ts ++ tail) =
      .ok (.ok (decoded { h.retype T' with autoResize := false }, tail)) := by
  have hall : h.counts.length < 2 ^ 24 :=
    lt_of_le_of_lt W.len_le_all (Lay.allSlots_lt W.mag17)
  have hcov := W.maxcov
  have hU : U64MAX = 18446744073709551615 := rfl
  have henc := enc_length ts
  have hel : (enc ts).length < 2 ^ 32 := by norm_num at hall ⊢; omega
  rw [wire_eq]
  unfold deserialize
  rw [show be32 COOKIE = beBytes 4 COOKIE from rfl, readBE_be _ _ _ (by decide)]
  simp only
  rw [if_true]
  unfold deserV2
  rw [readHeader_wire W hel]
  simp only
  rw [W.new_eq T', M.ok_bind]
  simp only [readN]
  rw [if_pos (by rw [List.length_append]; omega), List.take_left' rfl, List.drop_left' rfl]
  simp only
  obtain ⟨f1, f2⟩ := W.fresh_eq T'
  generalize hg : Hist.fresh fp T' h.lowestDiscernible h.highestTrackable h.sigDigits = g at f1 f2
  have hgm : g.maxValue = 0 := by rw [← hg]; rfl
  have hgn : g.minNonZero = U64MAX := by rw [← hg]; rfl
  rw [decodePayload_eq checks g (enc ts) ((enc ts).length + 1) (by omega)]
  have hg0 : g = { g with counts := [] ++ List.replicate h.counts.length 0 } := by
    rw [List.nil_append, ← f2]
  have hsub : ∀ c ∈ ts.flatMap expand, c ≤ T'.max := by
    intro c hc; rw [hexp] at hc; exact hfit c (List.mem_of_mem_take hc)
  have hlen2 : (ts.flatMap expand).length = h.lidx h.maxValue + 1 := by
    rw [hexp, List.length_take]; omega
  have := slow_enc checks g ts [] h.counts.length ((enc ts).length + 1) htok (by omega) hsub
    (by omega) (by norm_num at hall; simp; omega)
  rw [← hg0] at this
  simp only [List.nil_append, List.length_nil] at this
  rw [show Hist.restatLoop [] 0 Hist.RestatState.new = Hist.RestatState.new from rfl] at this
  rw [this, M.ok_bind]
  simp only
  rw [hlen2, hexp, ← W.counts_split]
  have hr : Hist.restatLoop (h.counts.take (h.lidx h.maxValue + 1)) 0 Hist.RestatState.new =
      Hist.restatLoop h.counts 0 Hist.RestatState.new := by
    conv_rhs => rw [W.counts_split]
    rw [restatLoop_append, restatLoop_replicate]
  have Wg : WFc fp g := hg ▸ (W.freshOf_wf T').toWFc
  have Wg' := WFc_counts (cs := h.counts) Wg (by rw [f2]; simp) hfit
  have hup := updateHistogram_eq Wg'.toLayoutOK Wg'.len_le_all hgm hgn
  simp only at hup
  rw [hr, hup, M.ok_bind, M.pure_eq, M.ok_bind, f1]
  rfl

/-- reading an encoding at a counter type that does not hold some count -/
theorem deserialize_wire_fail {h : Hist T} (W : WF fp h) (z : Zlib) (T' : CounterTy) (checks : Bool)
    {ts : List Int} (hexp : ts.flatMap expand = h.counts.take (h.lidx h.maxValue + 1))
    (htok : ∀ t ∈ ts, Tok t) (hlen : ts.length ≤ h.lidx h.maxValue + 1)
    (hfit : ∃ c ∈ h.counts, T'.max < c) (tail : List UInt8) :
    deserialize fp z T' checks (wire h ts ++ tail) = .ok (.error .UnsuitableCounterType) := by
  have hall : h.counts.length < 2 ^ 24 :=
    lt_of_le_of_lt W.len_le_all (Lay.allSlots_lt W.mag17)
  have hcov := W.maxcov
  have hU : U64MAX = 18446744073709551615 := rfl
  have henc := enc_length ts
  have hel : (enc ts).length < 2 ^ 32 := by norm_num at hall ⊢; omega
  rw [wire_eq]
  unfold deserialize
  rw [show be32 COOKIE = beBytes 4 COOKIE from rfl, readBE_be _ _ _ (by decide)]
  simp only
  rw [if_true]
  unfold deserV2
  rw [readHeader_wire W hel]
  simp only
  rw [W.new_eq T', M.ok_bind]
  simp only [readN]
  rw [if_pos (by rw [List.length_append]; omega), List.take_left' rfl, List.drop_left' rfl]
  simp only
  obtain ⟨f1, f2⟩ := W.fresh_eq T'
  generalize hg : Hist.fresh fp T' h.lowestDiscernible h.highestTrackable h.sigDigits = g at f1 f2
  rw [decodePayload_eq checks g (enc ts) ((enc ts).length + 1) (by omega)]
  have hg0 : g = { g with counts := [] ++ List.replicate h.counts.length 0 } := by
    rw [List.nil_append, ← f2]
  have hsub : ∃ c ∈ ts.flatMap expand, T'.max < c := by
    obtain ⟨c, hc, hlt⟩ := hfit
    refine ⟨c, ?_, hlt⟩
    rw [hexp]
    have hsp := W.counts_split
    rw [hsp] at hc
    rcases List.mem_append.mp hc with h1 | h1
    · exact h1
    · rw [List.eq_of_mem_replicate h1] at hlt; omega
  have hlen2 : (ts.flatMap expand).length = h.lidx h.maxValue + 1 := by
    rw [hexp, List.length_take]; omega
  have := slow_enc_fail checks g ts [] h.counts.length ((enc ts).length + 1) htok (by omega) hsub
    (by omega) (by norm_num at hall; simp; omega)
  rw [← hg0] at this
  simp only [List.length_nil] at this
  rw [show Hist.restatLoop [] 0 Hist.RestatState.new = Hist.RestatState.new from rfl] at this
  rw [this, M.ok_bind]
  rfl

theorem readBE_mono {n x : Nat} {p q r : List UInt8} (h : readBE n p = some (x, r)) :
    readBE n (p ++ q) = some (x, r ++ q) := by
  unfold readBE readN at *
  split at h
  swap
  · simp at h
  rename_i hle
  simp only [Option.map_some, Option.some.injEq, Prod.mk.injEq] at h
  rw [if_pos (by rw [List.length_append]; omega), List.take_append_of_le_length hle,
    List.drop_append_of_le_length hle, ← h.1, ← h.2]
  rfl

/-- reading a header does not look beyond it -/
theorem readHeader_mono {p q : List UInt8} {hd : Header} (h : readHeader p = .ok hd) :
    readHeader (p ++ q) = .ok { hd with rest := hd.rest ++ q } := by
  unfold readHeader at h ⊢
  cases h1 : readBE 4 p with
  | none => rw [h1] at h; simp at h
  | some p1 =>
  obtain ⟨n1, r1⟩ := p1
  rw [h1] at h; rw [readBE_mono h1]; simp only at h ⊢
  cases h2 : readBE 4 r1 with
  | none => rw [h2] at h; simp at h
  | some p2 =>
  obtain ⟨n2, r2⟩ := p2
  rw [h2] at h; rw [readBE_mono h2]; simp only at h ⊢
  split at h
  · simp at h
  rename_i c1
  rw [if_neg c1]
  cases h3 : readBE 4 r2 with
  | none => rw [h3] at h; simp at h
  | some p3 =>
  obtain ⟨n3, r3⟩ := p3
  rw [h3] at h; rw [readBE_mono h3]; simp only at h ⊢
  split at h
  · simp at h
  rename_i c2
  rw [if_neg c2]
  cases h4 : readBE 8 r3 with
  | none => rw [h4] at h; simp at h
  | some p4 =>
  obtain ⟨n4, r4⟩ := p4
  rw [h4] at h; rw [readBE_mono h4]; simp only at h ⊢
  cases h5 : readBE 8 r4 with
  | none => rw [h5] at h; simp at h
  | some p5 =>
  obtain ⟨n5, r5⟩ := p5
  rw [h5] at h; rw [readBE_mono h5]; simp only at h ⊢
  cases h6 : readBE 8 r5 with
  | none => rw [h6] at h; simp at h
  | some p6 =>
  obtain ⟨n6, r6⟩ := p6
  rw [h6] at h; rw [readBE_mono h6]; simp only at h ⊢
  split at h
  · simp at h
  rename_i c3
  rw [if_neg c3]
  simp only [Except.ok.injEq] at h ⊢
  subst h; rfl

/-- Every strict prefix of a serialized histogram is rejected. -/
theorem deserialize_prefix {h : Hist T} (W : WF fp h) (z : Zlib) (T' : CounterTy) (checks : Bool)
    {ts : List Int} (hl : (enc ts).length < 2 ^ 32) {p q : List UInt8} (hw : wire h ts = p ++ q)
    (hq : q ≠ []) : ∃ e, deserialize fp z T' checks p = .ok (.error e) := by
  have hq' : 0 < q.length := List.length_pos_iff.mpr hq
  have hw1 := wire_eq h ts []
  rw [List.append_nil, List.append_nil, hw] at hw1
  unfold deserialize
  cases h1 : readBE 4 p with
  | none => exact ⟨_, rfl⟩
  | some p1 =>
    obtain ⟨ck, r⟩ := p1
    have h2 := readBE_mono (q := q) h1
    rw [hw1, show be32 COOKIE = beBytes 4 COOKIE from rfl, readBE_be _ _ _ (by decide)] at h2
    simp only [Option.some.injEq, Prod.mk.injEq] at h2
    obtain ⟨rfl, h2⟩ := h2
    simp only
    rw [if_true]
    unfold deserV2
    cases h3 : readHeader r with
    | error e => exact ⟨_, rfl⟩
    | ok hd =>
      have h4 := readHeader_mono (q := q) h3
      rw [← h2, readHeader_wire W hl] at h4
      simp only [Except.ok.injEq] at h4
      simp only
      have e1 : hd.payloadLen = (enc ts).length := (congrArg Header.payloadLen h4).symm
      have e2 : hd.digits = h.sigDigits := (congrArg Header.digits h4).symm
      have e3 : hd.low = h.lowestDiscernible := (congrArg Header.low h4).symm
      have e4 : hd.high = h.highestTrackable := (congrArg Header.high h4).symm
      have e5 : enc ts = hd.rest ++ q := congrArg Header.rest h4
      rw [e1, e2, e3, e4, W.new_eq T', M.ok_bind]
      simp only [readN]
      rw [if_neg (by rw [e5, List.length_append]; omega)]
      exact ⟨_, rfl⟩

/-! ### deflate -/

/-- what is assumed of the compressor -/
structure Zlib.Lawful (z : Zlib) : Prop where
  inflate_deflate : ∀ bs, z.inflate (z.deflate bs) = bs
  unread_deflate : ∀ bs, z.unread (z.deflate bs) = 0
  length_deflate : ∀ bs, (z.deflate bs).length ≤ 2 * bs.length + 64

theorem serializeDeflate_spec {h : Hist T} (W : WF fp h) {z : Zlib} (hz : z.Lawful) :
    ∃ r : Option (List Int),
      (match r with
       | none => ∃ j, j ≤ h.lidx h.maxValue ∧ 9223372036854775807 < h.counts.getD j 0
       | some ts => ts.flatMap expand = h.counts.take (h.lidx h.maxValue + 1) ∧ (∀ t ∈ ts, Tok t)
           ∧ ts.length ≤ h.lidx h.maxValue + 1
           ∧ ∀ j, j ≤ h.lidx h.maxValue → h.counts.getD j 0 ≤ 9223372036854775807) ∧
      (∀ junk, serialize junk h = .ok (match r with
        | none => .error .CountNotSerializable
        | some ts => .ok (wire h ts, (wire h ts).length))) ∧
      ∀ junk, serializeDeflate z junk h = .ok (match r with
        | none => .error .CountNotSerializable
        | some ts => .ok (be32 COMPRESSED_COOKIE ++ be32 (z.deflate (wire h ts)).length ++ z.deflate (wire h ts),
            8 + (z.deflate (wire h ts)).length)) := by
  obtain ⟨r, hr, hs⟩ := serialize_spec W
  refine ⟨r, ?_, hs, fun junk => ?_⟩
  · cases r with
    | none => exact hr
    | some ts => exact ⟨hr.1, hr.2.1, hr.2.2.1, hr.2.2.2.1⟩
  have hall : h.counts.length < 2 ^ 24 :=
    lt_of_le_of_lt W.len_le_all (Lay.allSlots_lt W.mag17)
  have hcov := W.maxcov
  unfold serializeDeflate
  rw [hs junk, M.ok_bind]
  cases r with
  | none => rfl
  | some ts =>
    simp only
    rw [assertM_true (by simp), M.ok_bind, List.take_length]
    have h1 := hz.length_deflate (wire h ts)
    have h2 := wire_length h ts
    have h3 := enc_length ts
    have h4 := hr.2.2.1
    norm_num at hall
    generalize hd : z.deflate (wire h ts) = d at *
    have hc : (be32 COMPRESSED_COOKIE ++ be32 0 ++ d).length = 8 + d.length := by
      simp only [List.length_append, be32, beBytes_length]
    rw [hc, Nat.mod_eq_of_lt (by norm_num; omega), subU_ok (by omega), M.ok_bind, M.pure_eq]
    congr 3
    have t1 : (be32 COMPRESSED_COOKIE ++ be32 0 ++ d).take 4 = be32 COMPRESSED_COOKIE := by
      rw [List.append_assoc]; exact List.take_left' rfl
    have t2 : (be32 COMPRESSED_COOKIE ++ be32 0 ++ d).drop 8 = d :=
      List.drop_left' (by simp only [List.length_append, be32, beBytes_length])
    rw [t1, t2, show 8 + d.length - 8 = d.length by omega]

theorem deserialize_deflate {h : Hist T} (W : WF fp h) {z : Zlib} (hz : z.Lawful) (T' : CounterTy)
    (checks : Bool)
    {ts : List Int} (hexp : ts.flatMap expand = h.counts.take (h.lidx h.maxValue + 1))
    (htok : ∀ t ∈ ts, Tok t) (hlen : ts.length ≤ h.lidx h.maxValue + 1)
    (hfit : ∀ c ∈ h.counts, c ≤ T'.max) (tail : List UInt8) :
    deserialize fp z T' checks
      (be32 COMPRESSED_COOKIE ++ be32 (z.deflate (wire h ts)).length ++ z.deflate (wire h ts) ++ tail) =
      .ok (.ok (decoded { h.retype T' with autoResize := false }, tail)) := by
  have hall : h.counts.length < 2 ^ 24 :=
    lt_of_le_of_lt W.len_le_all (Lay.allSlots_lt W.mag17)
  have hcov := W.maxcov
  have h1 := hz.length_deflate (wire h ts)
  have h2 := wire_length h ts
  have h3 := enc_length ts
  norm_num at hall
  have key := deserialize_wire W z T' checks hexp htok hlen hfit []
  rw [List.append_nil] at key
  unfold deserialize
  rw [List.append_assoc, List.append_assoc, show be32 COMPRESSED_COOKIE = beBytes 4 COMPRESSED_COOKIE from rfl,
    readBE_be _ _ _ (by decide)]
  simp only
  rw [if_neg (by decide), if_true]
  unfold deserV2Compressed
  rw [show be32 (z.deflate (wire h ts)).length = beBytes 4 (z.deflate (wire h ts)).length from rfl,
    readBE_be _ _ _ (by norm_num; omega)]
  simp only
  rw [List.take_left' rfl, hz.inflate_deflate, hz.unread_deflate, Nat.sub_zero, List.drop_left' rfl]
  unfold deserialize at key
  cases hb : readBE 4 (wire h ts) with
  | none => rw [hb] at key; simp at key
  | some p =>
    obtain ⟨ck, inner⟩ := p
    have hw1 := wire_eq h ts []
    rw [List.append_nil, List.append_nil] at hw1
    have hck : ck = COOKIE := by
      have hb' := hb
      rw [hw1, show be32 COOKIE = beBytes 4 COOKIE from rfl, readBE_be _ _ _ (by decide)] at hb'
      simp only [Option.some.injEq, Prod.mk.injEq] at hb'
      exact hb'.1.symm
    rw [hb] at key
    simp only [hck] at key
    rw [if_true] at key
    simp only [hck]
    rw [if_neg (by simp), key, M.ok_bind]
    rfl

end Hdr.V2
