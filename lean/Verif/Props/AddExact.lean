import Verif.Props.RecordExact

/-!
# `add` in every case (C19)
-/

namespace Hdr

variable {T : CounterTy} {fp : Fp}

/-- the same bucket layout: as many buckets, the same precision, the same unit -/
def SameBuckets (g s : Hist T) : Prop :=
  g.buckets = s.buckets ∧ g.sigfig = s.sigfig ∧ g.highestEquivalent 0 = s.highestEquivalent 0

theorem WF.sameBuckets_iff {g s : Hist T} (W : WF fp g) (Ws : WF fp s) : SameBuckets g s ↔ g.matching s := by
  unfold SameBuckets Hist.matching
  rw [W.highest_zero, Ws.highest_zero, W.sbc, Ws.sbc]
  have hb : g.buckets = g.bucketCount ∧ s.buckets = s.bucketCount := ⟨rfl, rfl⟩
  rw [hb.1, hb.2]
  have hu : Except.ok (ε := Panic) (2 ^ g.unitMag - 1) = .ok (2 ^ s.unitMag - 1) ↔ g.unitMag = s.unitMag := by
    rw [Except.ok.injEq]
    constructor
    · intro h
      have h1 := Nat.two_pow_pos g.unitMag
      have h2 := Nat.two_pow_pos s.unitMag
      exact Nat.pow_right_injective le_rfl (by show 2 ^ g.unitMag = 2 ^ s.unitMag; omega)
    · intro h; rw [h]
  have hs : g.sigfig = s.sigfig ↔ 2 ^ (g.subBucketHalfCountMag + 1) = 2 ^ (s.subBucketHalfCountMag + 1) := by
    unfold Hist.sigfig
    have h1 := W.mag
    have h2 := Ws.mag
    have h3 := W.sig5
    have h4 := Ws.sig5
    have key : ∀ a ≤ 5, ∀ b ≤ 5, Hist.subBucketCountMag a = Hist.subBucketCountMag b → a = b := by decide
    constructor
    · intro h; rw [h] at h1; rw [h1, ← h2]
    · intro h
      have : g.subBucketHalfCountMag + 1 = s.subBucketHalfCountMag + 1 := Nat.pow_right_injective le_rfl h
      exact key _ h3 _ h4 (by rw [← h1, ← h2, this])
  rw [hu, hs]

/-- the re-recording loop is a sequence of recordings -/
theorem addRecordLoop_seq {s : Hist T} (Ws : WF fp s) (is : List Nat) : ∀ {h h' : Hist T},
    (∀ i ∈ is, i < s.counts.length) → Hist.addRecordLoop s is h = .ok h' →
    recordSeq (Cls.records ((is.map s.lcls).filter fun c => decide (c.count ≠ 0))) h = .ok (h', .ok ()) := by
  induction is with
  | nil => intro h h' _ e; cases e; rfl
  | cons i is ih =>
    intro h h' hi e
    have hi0 := hi i (by simp)
    unfold Hist.addRecordLoop at e
    rw [WF.countAtIndex hi0, expectM_some, M.ok_bind] at e
    have hk := fun k hk => hi k (List.mem_cons_of_mem i hk)
    by_cases hc : s.counts.getD i 0 = 0
    · rw [if_neg (by rw [hc]; simp)] at e
      rw [List.map_cons, List.filter_cons_of_neg (by simpa [Hist.lcls] using hc)]
      exact ih hk e
    · rw [if_pos hc, Ws.valueFor hi0, M.ok_bind] at e
      rw [List.map_cons, List.filter_cons_of_pos (by simpa [Hist.lcls] using hc)]
      show recordSeq ((s.lval i, s.counts.getD i 0) :: _) h = _
      rw [recordSeq_cons]
      cases hr : h.recordN (s.lval i) (s.counts.getD i 0) with
      | error p => rw [hr] at e; cases e
      | ok x =>
        obtain ⟨g, r⟩ := x
        rw [hr, M.ok_bind] at e
        rw [M.ok_bind]
        cases r with
        | error q => cases e
        | ok u => exact ih hk e

theorem WF.add_grown {h s h' : Hist T} (W : WF fp h) (Ws : WF fp s) (hs : s.totalCount ≠ 0)
    (e : h.add s = .ok (h', .ok ())) : (h.addGrown s).addBody s = .ok h' := by
  unfold Hist.add at e
  have := W.len_pos
  rw [if_neg (by simp [Hist.isEmpty, hs]), W.lastIndex, M.ok_bind, W.valueFor (by omega), M.ok_bind,
    highestEquivalent_eq W.toLayoutOK (W.lval_le (by omega)), M.ok_bind, Ws.max_eq, M.ok_bind] at e
  change (if h.ltop < s.lmax then _ else _) = _ at e
  by_cases hlt : h.ltop < s.lmax
  · rw [if_pos hlt] at e
    obtain ⟨-, -, -, -, -, -, -, -, hres⟩ := W.addGrown (s := s)
    by_cases ha : h.autoResize = true
    · rw [if_neg (by simp [ha]), hres hlt, M.ok_bind, M.bind_eq_ok] at e
      obtain ⟨x, e1, e2⟩ := e
      cases e2
      exact e1
    · rw [if_pos (by simpa using ha)] at e
      cases e
  · rw [if_neg hlt, M.bind_eq_ok] at e
    obtain ⟨x, e1, e2⟩ := e
    cases e2
    unfold Hist.addGrown
    rw [if_neg hlt]
    exact e1

/-- C19, a successful `add` in every case. An empty source changes nothing. Otherwise the target first grows, if the maximum of the
source is not covered (or `u64::MAX`), to `g`. If `g` and the source have different bucket layouts, what follows is a sequence of
recordings: first the class `c` of the source's maximum, then the other non-empty classes in ascending order, each with its count
at its lowest value. If they have the same layout and the target is empty it takes over the counts and statistics of the source as they are;
otherwise `len()` grows by the sum of the counts (C17 says the rest). -/
theorem C19_exact {h s h' : Hist T} (R : Reachable fp T h) (Rs : Reachable fp T s) {mx : Nat} (hmx : s.max = .ok mx)
    {pre post : List Cls} {c : Cls} (C : Classes s (pre ++ c :: post)) (hc : Equiv s c.lo mx)
    (e : h.add s = .ok (h', .ok ())) :
    (s.len = 0 → h' = h) ∧
    (s.len ≠ 0 → ∃ g, (if h.Covers mx ∧ mx ≠ U64MAX then g = h else h.resize mx = .ok g) ∧
      (¬ SameBuckets g s →
        recordSeq ((c.lo, c.count) :: Cls.records (pre.filter fun c => decide (c.count ≠ 0))) g = .ok (h', .ok ())) ∧
      (SameBuckets g s → h.len = 0 →
        h'.counts = s.counts ∧ h'.len = s.len ∧ h'.max = s.max ∧ h'.minNz = s.minNz) ∧
      (¬ (SameBuckets g s ∧ h.len = 0) →
        h'.len = min (h.len + ((pre ++ c :: post).map (·.count)).sum) U64MAX)) := by
  have W := R.wf
  have Ws := Rs.wf
  obtain ⟨h1, r, e1, W', hr⟩ := W.add_spec Ws
  rw [e] at e1
  cases e1
  have hmx' : s.lmax = mx := by rw [Ws.max_eq] at hmx; exact Except.ok.inj hmx
  have hmle : mx ≤ U64MAX := hmx' ▸ lmax_le
  have hcnt : ((pre ++ c :: post).map (·.count)) = s.counts := by
    rw [Ws.classes_unique C, List.map_map]
    refine List.ext_getElem (by simp) ?_
    intro i h1 h2
    simp only [List.getElem_map, List.getElem_range, Function.comp]
    show s.counts.getD i 0 = _
    rw [List.getD_eq_getElem?_getD, List.getElem?_eq_getElem h2]
    rfl
  rcases hr with ⟨h0, hh⟩ | ⟨h0, hau, hcfg, hlen, hht, hget, hempty, htot, hstat⟩
  · exact ⟨fun _ => hh, fun hn => absurd h0 hn⟩
  refine ⟨fun hn => absurd hn h0, fun _ => ⟨h.addGrown s, ?_, ?_, ?_, ?_⟩⟩
  · obtain ⟨-, -, -, -, -, -, -, -, hres⟩ := W.addGrown (s := s)
    have hiff := W.ltop_lt_iff (x := s.lmax) lmax_le
    rw [hmx'] at hiff hres
    split
    · rename_i hcv
      unfold Hist.addGrown
      have hn : ¬ h.ltop < s.lmax := fun hl =>
        (hiff.mp (hmx' ▸ hl)).elim (fun a => a hcv.1) (fun a => hcv.2 a)
      rw [if_neg hn]
    · rename_i hcv
      refine hres (hiff.mpr ?_)
      by_cases hx : h.Covers mx
      · exact Or.inr (Classical.byContradiction fun a => hcv ⟨hx, a⟩)
      · exact Or.inl hx
  · intro hnb
    obtain ⟨Wg, hcov, -⟩ := W.addGrown (s := s)
    have hnm : ¬ (h.addGrown s).matching s := fun hm => hnb ((Wg.sameBuckets_iff Ws).mpr hm)
    have eb := W.add_grown Ws h0 e
    unfold Hist.addBody at eb
    have hm : ((h.addGrown s).bucketCount == s.bucketCount && (h.addGrown s).subBucketCount == s.subBucketCount
        && (h.addGrown s).unitMag == s.unitMag) = false := by
      unfold Hist.matching at hnm
      by_contra hcon
      apply hnm
      simpa [and_assoc] using hcon
    simp only [hm, Bool.false_and, Bool.false_eq_true, if_false] at eb
    have hsm : s.lidx s.lmax = s.lidx s.maxValue := Ws.lidx_lmax
    have hol := Ws.maxcov
    rw [Ws.max_eq, M.ok_bind, indexFor_eq Ws.toLayoutOK lmax_le, M.ok_bind, expectM_some, M.ok_bind,
      hsm, WF.countAtIndex hol, expectM_some, M.ok_bind, Ws.valueFor hol, M.ok_bind] at eb
    have hcl := Ws.classes_unique C
    have hplen : pre.length < s.counts.length := by
      have := congrArg List.length hcl
      simp at this; omega
    have hcge : c = s.lcls pre.length := by
      have : (pre ++ c :: post)[pre.length]? = some c := by simp
      rw [hcl, List.getElem?_map, List.getElem?_range hplen] at this
      simpa using this.symm
    have hpre : pre = (List.range pre.length).map s.lcls := by
      have := congrArg (List.take pre.length) hcl
      rw [List.take_left, ← List.map_take, List.take_range, Nat.min_eq_left hplen.le] at this
      exact this
    have hidx : s.lidx s.maxValue = pre.length := by
      have hclo : c.lo ≤ U64MAX := by rw [hcge]; exact Ws.lval_le hplen
      have := (Ws.equiv_iff hclo hmle).mp hc
      rw [← hmx', hsm, hcge] at this
      rw [← this]
      exact Lay.idx_val
    rw [hidx] at eb
    rw [hcge]
    show recordSeq ((s.lval pre.length, s.counts.getD pre.length 0) :: _) _ = _
    rw [recordSeq_cons]
    cases hrec : (h.addGrown s).recordN (s.lval pre.length) (s.counts.getD pre.length 0) with
    | error p => rw [hrec] at eb; cases eb
    | ok x =>
      obtain ⟨g, r⟩ := x
      rw [hrec, M.ok_bind] at eb
      rw [M.ok_bind]
      cases r with
      | error q => cases eb
      | ok u =>
        have := addRecordLoop_seq Ws (List.range pre.length)
          (fun i hi => lt_trans (List.mem_range.mp hi) hplen) eb
        rw [← hpre] at this
        exact this
  · intro hb hl
    obtain ⟨Wg, -⟩ := W.addGrown (s := s)
    obtain ⟨a1, a2, a3, a4⟩ := hempty ⟨(Wg.sameBuckets_iff Ws).mp hb, hl⟩
    have hm := (Wg.sameBuckets_iff Ws).mp hb
    obtain ⟨-, -, hcg, -⟩ := W.addGrown (s := s)
    have hum : h'.unitMag = s.unitMag := by rw [hcfg.um, ← hcg.um]; exact hm.2.2
    have hmag : h'.subBucketHalfCountMag = s.subBucketHalfCountMag := by
      rw [hcfg.mag, ← hcg.mag]; exact matching_mag Wg Ws hm
    refine ⟨a1, a2, ?_, ?_⟩
    · rw [W'.max_eq, Ws.max_eq]
      unfold Hist.lmax Hist.lhi Hist.llo Hist.lwid
      rw [a3, hum, hmag]
    · rw [W'.minNz_eq, Ws.minNz_eq]
      unfold Hist.lminNz Hist.llo
      rw [a4, hum, hmag]
  · intro hn
    rw [hcnt]
    obtain ⟨Wg, -⟩ := W.addGrown (s := s)
    exact htot fun hh => hn ⟨(Wg.sameBuckets_iff Ws).mpr hh.1, hh.2⟩

theorem maxAfter_head {h : Hist T} {x : Nat × Nat} (l : List (Nat × Nat)) : ∀ {m : Nat},
    (∀ p ∈ l, h.lidx p.1 ≤ h.lidx x.1) → h.maxAfter (x :: l) m = Max.max m (h.lidx x.1) := by
  induction l with
  | nil => intro m _; rfl
  | cons p l ih =>
    intro m hl
    have h1 := hl p (by simp)
    have h2 := @ih (Max.max m (h.lidx p.1)) (fun q hq => hl q (List.mem_cons_of_mem p hq))
    unfold Hist.maxAfter at h2 ⊢
    simp only [List.foldl_cons] at h2 ⊢
    rw [show Max.max (Max.max m (h.lidx x.1)) (h.lidx p.1) = Max.max (Max.max m (h.lidx p.1)) (h.lidx x.1) by
      omega, h2]
    omega

/-- C19, `max()` of the sum of two non-empty histograms, whatever their layouts: it lies in the class of the larger of the
target's `max()` and the lowest value `c.lo` of the class of the source's `max()`. -/
theorem C19_max {h s h' : Hist T} (R : Reachable fp T h) (Rs : Reachable fp T s) {mx : Nat} (hmx : s.max = .ok mx)
    {pre post : List Cls} {c : Cls} (C : Classes s (pre ++ c :: post)) (hc : Equiv s c.lo mx)
    (e : h.add s = .ok (h', .ok ())) (hn : h.len ≠ 0) (hs : s.len ≠ 0) {m0 m : Nat} (hm0 : h.max = .ok m0)
    (hm : h'.max = .ok m) : Equiv h m (max m0 c.lo) := by
  have W := R.wf
  have Ws := Rs.wf
  obtain ⟨-, hx⟩ := C19_exact R Rs hmx C hc e
  obtain ⟨g, hg, hdiff, -, -⟩ := hx hs
  have hmx' : s.lmax = mx := by rw [Ws.max_eq] at hmx; exact Except.ok.inj hmx
  have hmle : mx ≤ U64MAX := hmx' ▸ lmax_le
  have hcl := Ws.classes_unique C
  have hplen : pre.length < s.counts.length := by
    have := congrArg List.length hcl
    simp at this; omega
  have hcge : c = s.lcls pre.length := by
    have : (pre ++ c :: post)[pre.length]? = some c := by simp
    rw [hcl, List.getElem?_map, List.getElem?_range hplen] at this
    simpa using this.symm
  have hpre : pre = (List.range pre.length).map s.lcls := by
    have := congrArg (List.take pre.length) hcl
    rw [List.take_left, ← List.map_take, List.take_range, Nat.min_eq_left hplen.le] at this
    exact this
  have hclo : c.lo ≤ U64MAX := by rw [hcge]; exact Ws.lval_le hplen
  have hidc : s.lidx c.lo = s.lidx s.lmax := by rw [hmx']; exact (Ws.equiv_iff hclo hmle).mp hc
  obtain ⟨h1, r, e1, W', hr⟩ := W.add_spec Ws
  rw [e] at e1
  cases e1
  rcases hr with ⟨h0, -⟩ | ⟨-, -, hcfg, -, -, -, -, -, hstat⟩
  · exact absurd h0 hs
  have em0 : h.lmax = m0 := by rw [W.max_eq] at hm0; exact Except.ok.inj hm0
  have em : h'.lmax = m := by rw [W'.max_eq] at hm; exact Except.ok.inj hm
  have a0 : m0 ≤ U64MAX := em0 ▸ lmax_le
  have a1 : m ≤ U64MAX := em ▸ lmax_le
  rw [W.equiv_iff a1 (by omega), ← em, ← em0, ← hcfg.lidx, W'.lidx_lmax]
  rw [hcfg.lidx]
  have hmaxx : h.lidx (Max.max h.lmax c.lo) = Max.max (h.lidx h.maxValue) (h.lidx c.lo) := by
    rw [← W.lidx_lmax]
    rcases le_total h.lmax c.lo with hle | hle
    · have : h.lidx h.lmax ≤ h.lidx c.lo := Lay.idx_mono hle
      rw [max_eq_right hle, max_eq_right this]
    · have : h.lidx c.lo ≤ h.lidx h.lmax := Lay.idx_mono hle
      rw [max_eq_left hle, max_eq_left this]
  rw [hmaxx]
  obtain ⟨Wg, -, hcg, -, -, hgm, -, -, hres⟩ := W.addGrown (s := s)
  have hgg : g = h.addGrown s := by
    have hiff := W.ltop_lt_iff (x := s.lmax) lmax_le
    rw [hmx'] at hiff hres
    split at hg
    · rename_i hcv
      have hnn : ¬ h.ltop < s.lmax := fun hl =>
        (hiff.mp (hmx' ▸ hl)).elim (fun a => a hcv.1) (fun a => hcv.2 a)
      unfold Hist.addGrown
      rw [if_neg hnn, hg]
    · rename_i hcv
      have : h.ltop < mx := by
        refine hiff.mpr ?_
        by_cases hx : h.Covers mx
        · exact Or.inr (Classical.byContradiction fun a => hcv ⟨hx, a⟩)
        · exact Or.inl hx
      rw [hres this] at hg
      exact (Except.ok.inj hg).symm
  rw [hgg] at hdiff
  by_cases hmt : (h.addGrown s).matching s
  · obtain ⟨hv, -⟩ := hstat ⟨hmt, hn⟩
    have hum : h.unitMag = s.unitMag := by rw [← hcg.um]; exact hmt.2.2
    have hmag : h.subBucketHalfCountMag = s.subBucketHalfCountMag := by
      rw [← hcg.mag]; exact matching_mag Wg Ws hmt
    have hlid : ∀ v, h.lidx v = s.lidx v := by intro v; unfold Hist.lidx; rw [hum, hmag]
    rw [hv]
    have hcc : h.lidx c.lo = h.lidx s.lmax := by rw [hlid, hlid]; exact hidc
    rw [hcc]
    split
    · rename_i hlt
      have : h.lidx h.lmax ≤ h.lidx s.lmax := Lay.idx_mono hlt.le
      rw [W.lidx_lmax] at this
      rw [lidx_or_mask W.toLayoutOK, max_eq_right this]
    · rename_i hlt
      have : h.lidx s.lmax ≤ h.lidx h.lmax := Lay.idx_mono (by omega)
      rw [W.lidx_lmax] at this
      rw [max_eq_left this]
  · have hseq := hdiff fun hb => hmt ((Wg.sameBuckets_iff Ws).mp hb)
    have hle' : ∀ i, s.counts.getD i 0 ≤ T.max := Ws.getD_le
    obtain ⟨h2, r2, e2, -, hr2⟩ := Wg.recordSeq_spec
      ((c.lo, c.count) :: Cls.records (pre.filter fun c => decide (c.count ≠ 0))) (by
        intro p hp
        rcases List.mem_cons.mp hp with rfl | hp
        · exact ⟨hclo, by rw [hcge]; exact hle' _⟩
        · obtain ⟨d, hd, rfl⟩ := List.mem_map.mp hp
          have hd := (List.mem_filter.mp hd).1
          rw [hpre] at hd
          obtain ⟨i, hi, rfl⟩ := List.mem_map.mp hd
          exact ⟨Ws.lval_le (lt_trans (List.mem_range.mp hi) hplen), hle' i⟩)
    rw [hseq] at e2
    cases e2
    have hE := hr2.1.max
    rw [maxAfter_head _ (by
      intro p hp
      obtain ⟨d, hd, rfl⟩ := List.mem_map.mp hp
      have hd := (List.mem_filter.mp hd).1
      rw [hpre] at hd
      obtain ⟨i, hi, rfl⟩ := List.mem_map.mp hd
      rw [hcge]
      exact Lay.idx_mono (Lay.val_le_val (List.mem_range.mp hi).le))] at hE
    rw [hcg.lidx, hcg.lidx, hcg.lidx, hgm] at hE
    exact hE

/-- so `max()` of a sum can be below `max()` of the source: 8 to 15 are one class of `demo3`, whose `max()` is 15, but not of a
histogram with one significant digit, where the count goes to 8 -/
theorem C19_max_lower : ∃ t g, Hist.newWithBounds Fp.ideal .u8 1 100 1 = .ok (.ok t) ∧
    t.add demo3 = .ok (g, .ok ()) ∧ demo3.max = .ok 15 ∧ g.max = .ok 8 := by
  have h : (match Hist.newWithBounds Fp.ideal .u8 1 100 1 with
    | .ok (.ok t) => (match t.add demo3 with
      | .ok (g, .ok ()) => decide (demo3.max = .ok 15 ∧ g.max = .ok 8)
      | _ => false)
    | _ => false) = true := by decide +kernel
  split at h
  · rename_i t ht
    split at h
    · rename_i g hg
      exact ⟨t, g, ht, hg, of_decide_eq_true h⟩
    · cases h
  · cases h

/-- the hypotheses of `C19_exact` and `C19_max`, with a source of a different layout -/
example : ∃ h', demoW.add demo3 = .ok (h', .ok ()) ∧ ¬ SameBuckets demoW demo3 ∧ demo3.len ≠ 0 ∧
    demo3.max = .ok 15 ∧ Equiv demo3 8 15 ∧
    Classes demo3 ([⟨0, 0, 1⟩, ⟨1, 1, 0⟩, ⟨2, 3, 0⟩, ⟨4, 7, 3⟩] ++ ⟨8, 15, 200⟩ :: []) := by
  obtain ⟨h', e, -⟩ : ∃ h', demoW.add demo3 = .ok (h', .ok ()) ∧ h'.len = 204 := okThen (by decide +kernel)
  refine ⟨h', e, ?_, by decide +kernel, by decide +kernel, by unfold Equiv; decide +kernel, by decide +kernel, by decide +kernel,
    by decide +kernel⟩
  unfold SameBuckets
  decide +kernel

end Hdr
