import Verif.Spec.Vocab
import Verif.Proofs.RoundTrip
import Verif.Proofs.Correct

/-!
# Reachable histograms are valid; the specification vocabulary in terms of the counts array
-/

namespace Hdr

variable {T : CounterTy} {fp : Fp}

/-! ### overflow checks only add panics -/

namespace V2

theorem onDecodedNum_mono {s : DecodeState T} {n : Int} {x} (h : onDecodedNum true s n = .ok x) :
    onDecodedNum false s n = .ok x := by
  unfold onDecodedNum negI64 at *
  split
  · rename_i hn
    rw [if_pos hn] at h
    split at h
    · simp at h
    · rename_i h1; rw [if_neg h1]; exact h
  · rename_i hn
    rw [if_neg hn] at h; exact h

theorem slowLoop_mono (f : Nat) : ∀ (r : List UInt8) (s : DecodeState T) (x),
    slowLoop true f r s = .ok x → slowLoop false f r s = .ok x := by
  induction f with
  | zero => intro r s x h; simp [slowLoop] at h
  | succ f ih =>
    intro r s x h
    rw [slowLoop_succ] at h ⊢
    split
    · rename_i hr; rw [if_pos hr] at h; exact h
    rename_i hr
    rw [if_neg hr] at h
    cases hv : varintRead r with
    | none => rw [hv] at h; exact h
    | some p =>
      rw [hv] at h
      simp only at h ⊢
      rw [M.bind_eq_ok] at h
      obtain ⟨y, h1, h2⟩ := h
      rw [onDecodedNum_mono h1, M.ok_bind]
      cases y with
      | error e => exact h2
      | ok s' => exact ih _ _ _ h2

theorem decodePayload_mono {h : Hist T} {p : List UInt8} {x}
    (hx : decodePayload true h p = .ok x) : decodePayload false h p = .ok x := by
  rw [decodePayload_eq _ _ _ (p.length + 1) (by omega)] at hx ⊢
  rw [M.bind_eq_ok] at hx
  obtain ⟨y, h1, h2⟩ := hx
  rw [slowLoop_mono _ _ _ _ h1, M.ok_bind]
  exact h2

theorem deserV2_mono {r : List UInt8} {x} (hx : deserV2 fp T true r = .ok x) :
    deserV2 fp T false r = .ok x := by
  unfold deserV2 at *
  cases h1 : readHeader r with
  | error e => rw [h1] at hx; exact hx
  | ok hd =>
    rw [h1] at hx
    simp only at hx ⊢
    rw [M.bind_eq_ok] at hx
    obtain ⟨y, h2, h3⟩ := hx
    rw [h2, M.ok_bind]
    cases y with
    | error e => exact h3
    | ok h =>
      simp only at h3 ⊢
      cases h4 : readN hd.payloadLen hd.rest with
      | none => rw [h4] at h3; exact h3
      | some p =>
        obtain ⟨p, rest⟩ := p
        rw [h4] at h3
        simp only at h3 ⊢
        rw [M.bind_eq_ok] at h3
        obtain ⟨w, h5, h6⟩ := h3
        rw [decodePayload_mono h5, M.ok_bind]
        exact h6

theorem deserialize_mono {z : Zlib} {r : List UInt8} {x} {checks : Bool}
    (hx : deserialize fp z T checks r = .ok x) : deserialize fp z T false r = .ok x := by
  cases checks with
  | false => exact hx
  | true =>
    unfold deserialize at *
    cases h1 : readBE 4 r with
    | none => rw [h1] at hx; exact hx
    | some p =>
      obtain ⟨ck, r1⟩ := p
      rw [h1] at hx
      simp only at hx ⊢
      split at hx
      · rename_i hc; rw [if_pos hc]; exact deserV2_mono hx
      rename_i hc
      rw [if_neg hc]
      split at hx
      · rename_i hc2
        rw [if_pos hc2]
        unfold deserV2Compressed at *
        cases h2 : readBE 4 r1 with
        | none => rw [h2] at hx; exact hx
        | some p2 =>
          obtain ⟨n, r2⟩ := p2
          rw [h2] at hx
          simp only at hx ⊢
          cases h3 : readBE 4 (z.inflate (r2.take n)) with
          | none => rw [h3] at hx; exact hx
          | some p3 =>
            obtain ⟨c3, r3⟩ := p3
            rw [h3] at hx
            simp only at hx ⊢
            split at hx
            · rename_i hc3; rw [if_pos hc3]; exact hx
            rename_i hc3
            rw [if_neg hc3]
            rw [M.bind_eq_ok] at hx
            obtain ⟨y, h4, h5⟩ := hx
            rw [deserV2_mono h4, M.ok_bind]
            exact h5
      · rename_i hc2; rw [if_neg hc2]; exact hx

theorem deserialize_valid {z : Zlib} {checks : Bool} {r rest : List UInt8} {h : Hist T}
    (hx : deserialize fp z T checks r = .ok (.ok (h, rest))) :
    WF fp h ∧ (∃ g : Hist T, h = decoded g ∧ WFc fp g) ∧ h.autoResize = false := by
  obtain ⟨x, e, hs⟩ := deserialize_spec fp z T false r (by simp) (by simp)
  rw [deserialize_mono hx] at e
  cases e
  exact hs h rest rfl

end V2

/-! ### validity of reachable histograms -/

theorem newWithBounds_wf {low high sigfig : Nat} {h : Hist T} (hh : high ≤ U64MAX)
    (e : Hist.newWithBounds fp T low high sigfig = .ok (.ok h)) :
    WF fp h ∧ h = Hist.fresh fp T low high sigfig ∧ 1 ≤ low ∧ low ≤ U64MAX / 2 ∧ 2 * low ≤ high ∧ sigfig ≤ 5
      ∧ fp.log2Floor low + Hist.subBucketCountMag sigfig ≤ 63 := by
  rw [newWithBounds_eq fp T hh] at e
  by_cases c1 : low < 1
  · simp [c1] at e
  by_cases c2 : U64MAX / 2 < low
  · rw [if_neg c1, if_pos c2] at e; simp at e
  by_cases c3 : high < 2 * low
  · rw [if_neg c1, if_neg c2, if_pos c3] at e; simp at e
  by_cases c4 : 5 < sigfig
  · rw [if_neg c1, if_neg c2, if_neg c3, if_pos c4] at e; simp at e
  by_cases c5 : 63 < fp.log2Floor low + Hist.subBucketCountMag sigfig
  · rw [if_neg c1, if_neg c2, if_neg c3, if_neg c4, if_pos c5] at e; simp at e
  rw [if_neg c1, if_neg c2, if_neg c3, if_neg c4, if_neg c5] at e
  simp only [Except.ok.injEq] at e
  subst e
  exact ⟨fresh_wf (by omega) (by omega) (by omega) hh (by omega) (by omega), rfl, by omega, by omega, by omega,
    by omega, by omega⟩

theorem new_wf {sigfig : Nat} {h : Hist T} (e : Hist.new fp T sigfig = .ok (.ok h)) :
    WF fp h ∧ h = (Hist.fresh fp T 1 2 sigfig).auto true ∧ sigfig ≤ 5 := by
  unfold Hist.new at e
  rw [M.bind_eq_ok] at e
  obtain ⟨x, e1, e2⟩ := e
  cases x with
  | error e => simp at e2
  | ok g =>
    simp only [M.pure_eq, Except.ok.injEq] at e2
    subst e2
    obtain ⟨W, hg, -, -, -, h5, -⟩ := newWithBounds_wf (by decide) e1
    exact ⟨W.auto true, by rw [hg]; rfl, h5⟩

theorem WF.recordN_wf {h h' : Hist T} (W : WF fp h) {v c : Nat} {r} (hv : v ≤ U64MAX) (hc : c ≤ T.max)
    (e : h.recordN v c = .ok (h', r)) : WF fp h' := by
  rw [W.recordN_eq hv hc] at e
  split at e
  · cases e; exact W.record_wf hv
  · cases e; exact W

theorem hiddenSeries_le {v i x : Nat} (hx : x ∈ v :: hiddenSeries v i) : x ≤ v := by
  rcases List.mem_cons.mp hx with rfl | hx
  · exact le_rfl
  · exact (hiddenSeries_lt hx).1.le

theorem WF.recordSeq_wf {h h' : Hist T} (W : WF fp h) {l : List (Nat × Nat)} {r}
    (hv : ∀ p ∈ l, p.1 ≤ U64MAX ∧ p.2 ≤ T.max) (e : recordSeq l h = .ok (h', r)) : WF fp h' := by
  obtain ⟨h1, r1, e1, W1, -⟩ := W.recordSeq_spec l hv
  rw [e1] at e; cases e; exact W1

theorem correct_valid {v c i : Nat} (hv : v ≤ U64MAX) (hc : c ≤ T.max) :
    ∀ p ∈ (v :: hiddenSeries v i).map fun v => (v, c), p.1 ≤ U64MAX ∧ p.2 ≤ T.max := by
  intro p hp
  rw [List.mem_map] at hp
  obtain ⟨x, hx, rfl⟩ := hp
  exact ⟨le_trans (hiddenSeries_le hx) hv, hc⟩

theorem Reachable.wf {h : Hist T} (R : Reachable fp T h) : WF fp h := by
  induction R with
  | newWithBounds hh e => exact (newWithBounds_wf hh e).1
  | newWithMax hh e => exact (newWithBounds_wf hh e).1
  | new e => exact (new_wf e).1
  | newFrom _ e ih =>
    obtain ⟨g, e1, W, -⟩ := ih.newFrom_eq
    rw [e1] at e; cases e; exact W
  | deserialize z checks bytes rest e => exact (V2.deserialize_valid e).1
  | recordN _ hv hc e ih => exact ih.recordN_wf hv hc e
  | saturatingRecordN _ hv hc e ih =>
    rw [ih.saturatingRecordN_eq hv] at e; cases e
    exact ih.recorded (ih.clampTo_le hv) (ih.clampTo_cov _)
  | recordNCorrect _ hv hc e ih =>
    rw [recordNCorrect_eq] at e
    exact ih.recordSeq_wf (correct_valid hv hc) e
  | add _ _ e ih1 ih2 =>
    obtain ⟨g, r, e1, W, -⟩ := ih1.add_spec ih2
    rw [e1] at e; cases e; exact W
  | subtract _ _ e ih1 ih2 =>
    obtain ⟨g, r, e1, W, -⟩ := ih1.subtract_spec ih2
    rw [e1] at e; cases e; exact W
  | setTo _ _ e ih1 ih2 =>
    obtain ⟨g, r, e1, W, -⟩ := ih1.reset.add_spec ih2
    unfold Hist.setTo at e
    rw [e1] at e; cases e; exact W
  | addCorrect _ _ e ih1 ih2 =>
    rw [ih2.addCorrect_eq] at e
    exact ih1.recordSeq_wf (ih2.corrected_valid _) e
  | setToCorrected _ _ e ih1 ih2 =>
    unfold Hist.setToCorrected at e
    rw [ih2.addCorrect_eq] at e
    exact ih1.reset.recordSeq_wf (ih2.corrected_valid _) e
  | cloneCorrect _ e ih =>
    obtain ⟨c, g, -, -, e1, -, W, -⟩ := ih.cloneCorrect_spec _
    rw [e1] at e; cases e; exact W
  | reset _ ih => exact ih.reset
  | clear _ ih => exact ih.clear
  | auto b _ ih => exact ih.auto b

/-! ### the vocabulary -/

theorem WF.covers_iff {h : Hist T} (W : WF fp h) (v : Nat) :
    h.Covers v ↔ h.lidx v < h.counts.length := by
  rw [W.covered_iff]
  unfold Hist.Covers Hist.coverEnd
  rw [W.bc]
  generalize h.lbkt h.highestTrackable = b
  unfold Hist.lbkt Lay.bkt
  by_cases h0 : v = 0
  · subst h0
    simp
  have := @Nat.log2_lt v (h.unitMag + h.subBucketHalfCountMag + (b + 1)) h0
  rw [← this]
  omega

theorem WF.countAt_eq {h : Hist T} (W : WF fp h) {v : Nat} (hv : v ≤ U64MAX) :
    h.countAt v = .ok (h.counts.getD (min (h.lidx v) (h.counts.length - 1)) 0) := by
  have := W.len_pos
  unfold Hist.countAt
  rw [indexForOrLast_eq W.toLayoutOK hv W.counts_ne, M.ok_bind, WF.countAtIndex (by omega), expectM_some]

theorem WF.hasCount_iff {h : Hist T} (W : WF fp h) {v n : Nat} (hv : v ≤ U64MAX) :
    HasCount h v n ↔ n = h.counts.getD (h.lidx v) 0 := by
  unfold HasCount
  rw [W.countAt_eq hv, W.covers_iff]
  by_cases hc : h.lidx v < h.counts.length
  · rw [Nat.min_eq_left (by omega)]
    simp only [hc, true_and, Except.ok.injEq, not_true, false_and, or_false]
    exact eq_comm
  · rw [getD_ge (Nat.le_of_not_lt hc)]
    simp [hc]

theorem WF.equiv_iff {h : Hist T} (W : WF fp h) {v w : Nat} (hv : v ≤ U64MAX) (hw : w ≤ U64MAX) :
    Equiv h v w ↔ h.lidx v = h.lidx w := by
  unfold Equiv
  rw [equivalent_eq W.toLayoutOK hv hw]
  simp only [Except.ok.injEq, beq_iff_eq]
  exact Lay.lo_eq_iff

theorem WF.recordedFor_eq {h : Hist T} (W : WF fp h) {l : List (Nat × Nat)} {w : Nat}
    (hl : ∀ p ∈ l, p.1 ≤ U64MAX) (hw : w ≤ U64MAX) :
    recordedFor h l w = h.hits l (h.lidx w) := by
  unfold recordedFor
  induction l with
  | nil => rfl
  | cons p l ih =>
    rw [hits_cons, ← ih (fun q hq => hl q (by simp [hq]))]
    by_cases he : Equiv h p.1 w
    · rw [List.filter_cons_of_pos (by simpa using he), if_pos ((W.equiv_iff (hl p (by simp)) hw).mp he)]
      simp
    · rw [List.filter_cons_of_neg (by simpa using he),
        if_neg (fun hh => he ((W.equiv_iff (hl p (by simp)) hw).mpr hh))]
      simp

end Hdr
