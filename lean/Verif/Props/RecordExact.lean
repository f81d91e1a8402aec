import Verif.Props.Merge
import Verif.Props.Record

/-!
# What `max()`, `min()` and `min_nz()` answer after any recordings

`C13_max_partial`, `C13_min_partial` and `C13_min_nz_partial` leave out the cases in which the code does not do what
C13 says.  The theorems here say what it answers in every case.
-/

namespace Hdr

variable {T : CounterTy} {fp : Fp}

theorem WF.recordSeq_raw {l : List (Nat × Nat)} : ∀ {h h' : Hist T}, WF fp h →
    (∀ p ∈ l, p.1 ≤ U64MAX ∧ p.2 ≤ T.max) → recordSeq l h = .ok (h', .ok ()) →
    (h'.maxValue = h.maxValue ∨ ∃ p ∈ l, h.maxValue < p.1 ∧ h'.maxValue = p.1 ||| h.unitMagMask) ∧
    (h'.minNonZero = h.minNonZero ∨ ∃ p ∈ l, p.1 < h.minNonZero ∧ h.unitMagMask < p.1) ∧
    h'.minNonZero ≤ h.minNonZero ∧ ∀ p ∈ l, h.unitMagMask < p.1 → h'.minNonZero ≤ p.1 := by
  induction l with
  | nil => intro h h' _ _ e; cases e; exact ⟨.inl rfl, .inl rfl, le_rfl, by simp⟩
  | cons p l ih =>
    intro h h' W hl e
    obtain ⟨v, c⟩ := p
    have hvc := hl (v, c) (by simp)
    rw [recordSeq_cons, W.recordN_eq hvc.1 hvc.2] at e
    by_cases hcov : h.lidx v < h.counts.length ∨ h.autoResize = true
    · rw [if_pos hcov, M.ok_bind] at e
      simp only at e
      obtain ⟨h1, h2, h3, h4⟩ := ih (W.record_wf hvc.1) (fun p hp => hl p (by simp [hp])) e
      have g1 : (h.growTo v).maxValue = h.maxValue := by simp
      have g2 : (h.growTo v).minNonZero = h.minNonZero := by simp
      have g3 : (h.growTo v).unitMagMask = h.unitMagMask := by
        unfold Hist.growTo; split <;> simp [Hist.resized]
      have e1 : ((h.growTo v).recorded v c).maxValue
          = if h.maxValue < v then v ||| h.unitMagMask else h.maxValue := by
        show (h.growTo v).newMax v = _
        unfold Hist.newMax; rw [g1, g3]
      have e2 : ((h.growTo v).recorded v c).minNonZero
          = if v < h.minNonZero ∧ h.unitMagMask < v then v &&& Hist.notU64 h.unitMagMask else h.minNonZero := by
        show (h.growTo v).newMin v = _
        unfold Hist.newMin; rw [g2, g3]
      have e3 : ((h.growTo v).recorded v c).unitMagMask = h.unitMagMask := g3
      rw [e1, e3] at h1
      rw [e2, e3] at h2
      rw [e2] at h3
      rw [e3] at h4
      have b1 : v ≤ v ||| h.unitMagMask := Nat.left_le_or
      have b2 : v &&& Hist.notU64 h.unitMagMask ≤ v := Nat.and_le_left
      refine ⟨?_, ?_, ?_, ?_⟩
      · by_cases hv : h.maxValue < v
        · rw [if_pos hv] at h1
          rcases h1 with h1 | ⟨p, hp, a, b⟩
          · exact .inr ⟨(v, c), by simp, hv, h1⟩
          · exact .inr ⟨p, by simp [hp], by omega, b⟩
        · rw [if_neg hv] at h1
          rcases h1 with h1 | ⟨p, hp, a, b⟩
          · exact .inl h1
          · exact .inr ⟨p, by simp [hp], a, b⟩
      · by_cases hv : v < h.minNonZero ∧ h.unitMagMask < v
        · exact .inr ⟨(v, c), by simp, hv⟩
        · rw [if_neg hv] at h2
          rcases h2 with h2 | ⟨p, hp, a, b⟩
          · exact .inl h2
          · exact .inr ⟨p, by simp [hp], a, b⟩
      · split at h3 <;> omega
      · intro p hp hm
        rcases List.mem_cons.mp hp with rfl | hp
        · dsimp only at hm ⊢
          split at h3 <;> omega
        · exact h4 p hp hm
    · rw [if_neg hcov, M.ok_bind] at e; cases e

theorem or_mask_val (um v : Nat) : v ||| (2 ^ um - 1) = v / 2 ^ um * 2 ^ um + (2 ^ um - 1) := by
  have hdiv : (v ||| (2 ^ um - 1)) / 2 ^ um = v / 2 ^ um := by
    rw [← Nat.shiftRight_eq_div_pow, ← Nat.shiftRight_eq_div_pow]
    apply Nat.eq_of_testBit_eq
    intro i
    simp [Nat.testBit_shiftRight, Nat.testBit_two_pow_sub_one]
  have hmod : (v ||| (2 ^ um - 1)) % 2 ^ um = 2 ^ um - 1 := by
    apply Nat.eq_of_testBit_eq
    intro i
    simp only [Nat.testBit_mod_two_pow, Nat.testBit_or, Nat.testBit_two_pow_sub_one]
    by_cases hi : i < um <;> simp [hi]
  have := Nat.div_add_mod (v ||| (2 ^ um - 1)) (2 ^ um)
  rw [hdiv, hmod, Nat.mul_comm] at this
  exact this.symm

theorem WF.highest_zero {h : Hist T} (W : WF fp h) : h.highestEquivalent 0 = .ok (2 ^ h.unitMag - 1) := by
  rw [highestEquivalent_eq W.toLayoutOK (by decide)]
  refine congrArg Except.ok ?_
  have h0 : Lay.wid h.unitMag h.subBucketHalfCountMag 0 = 2 ^ h.unitMag := by
    unfold Lay.wid Lay.bkt; simp
  have h1 : 2 ^ h.unitMag ≤ 2 ^ 62 := Nat.pow_le_pow_right (by norm_num) (by have := W.sum62; omega)
  have hU : U64MAX = 18446744073709551615 := rfl
  have hl : h.llo 0 = 0 := by unfold Hist.llo Lay.lo; simp
  have hw : h.llo 0 + h.lwid 0 = 2 ^ h.unitMag := by rw [hl]; unfold Hist.lwid; rw [h0, Nat.zero_add]
  norm_num at h1
  rw [lhi_eq (by rw [hw]; omega), hw]

/-- a class that reaches `u64::MAX` ends there -/
theorem top_end {h : Hist T} {v : Nat} (W : WF fp h) (hvle : v ≤ U64MAX) (hv : h.lidx v = h.lidx U64MAX) :
    h.llo v + h.lwid v = 2 ^ 64 := by
  have h1 := Lay.idx_eq_iff.mp hv.symm
  have h2 := Lay.lo_add_wid_le W.sum62 (v := v) (U64MAX_lt.mp hvle)
  have h3 : U64MAX < h.llo v + h.lwid v := h1.2
  have hU : U64MAX = 2 ^ 64 - 1 := by norm_num
  unfold Hist.llo Hist.lwid at *
  omega

theorem WF.lidx_top_pos {h : Hist T} (W : WF fp h) : 0 < h.lidx U64MAX := by
  rw [Nat.pos_iff_ne_zero]
  intro hc
  have h1 := Lay.idx_eq_zero_iff.mp hc
  have h2 : 2 ^ h.unitMag ≤ 2 ^ 62 := Nat.pow_le_pow_right (by norm_num) (by have := W.sum62; omega)
  have hU : U64MAX = 18446744073709551615 := rfl
  norm_num at h2
  omega

/-- C13, `max()` in every case: after recording `l` into a blank histogram, with `M` the largest value recorded and
`u` the largest value in the class of 0 (so the unit is `u + 1`): `max()` is what it was before if `M` is 0; else
the highest equivalent of `M`, unless `M` lies in the class of `u64::MAX`: then it is `u64::MAX` if `M` is at most `u`
below that, and `u64::MAX - 1` otherwise. -/
theorem C13_max_exact {h h' : Hist T} (R : Reachable fp T h) (B : Blank h) {l : List (Nat × Nat)}
    (hl : ∀ p ∈ l, p.1 ≤ U64MAX ∧ p.2 ≤ T.max) (e : recordSeq l h = .ok (h', .ok ())) {M u : Nat}
    (hM : ∃ p ∈ l, p.1 = M) (hMax : ∀ p ∈ l, p.1 ≤ M) (hu : h.highestEquivalent 0 = .ok u) :
    ∃ x, h'.max = .ok x ∧
      (M = 0 → h.max = .ok x) ∧
      (M ≠ 0 → ¬ Equiv h M U64MAX → h'.highestEquivalent M = .ok x) ∧
      (M ≠ 0 → Equiv h M U64MAX → x = if U64MAX ≤ M + u then U64MAX else U64MAX - 1) := by
  have W := R.wf
  obtain ⟨h1, r1, e1, W1, hr⟩ := W.recordSeq_spec l hl
  have e2 := e
  rw [e1] at e2; cases e2
  obtain ⟨E, -⟩ := hr
  obtain ⟨-, hge⟩ := W.recordSeq_max hl e
  obtain ⟨hraw, -⟩ := W.recordSeq_raw hl e
  rw [W.highest_zero] at hu
  have hu : 2 ^ h.unitMag - 1 = u := Except.ok.inj hu
  have hMle : M ≤ U64MAX := by obtain ⟨p, hp, rfl⟩ := hM; exact (hl p hp).1
  have hMraw : M ≤ h'.maxValue := by obtain ⟨p, hp, rfl⟩ := hM; exact hge p hp
  refine ⟨_, W1.max_eq, fun h0 => ?_, fun h0 hn => ?_, fun h0 ht => ?_⟩
  · have : h'.maxValue = h.maxValue := by
      rcases hraw with hraw | ⟨p, hp, a, -⟩
      · exact hraw
      · have := hMax p hp; omega
    rw [W.max_eq]
    refine congrArg Except.ok ?_
    unfold Hist.lmax Hist.lhi Hist.llo Hist.lwid
    rw [this, E.cfg.um, E.cfg.mag]
  · obtain ⟨x, x1, x2⟩ := C13_max_partial R B hl e hM hMax (.inl h0) hn
    rw [W1.max_eq] at x1
    rw [x2]; exact x1.symm
  · rw [W.equiv_iff hMle le_rfl] at ht
    have hidx : h'.lidx h'.maxValue = h'.lidx U64MAX := by
      rw [E.cfg.lidx, E.cfg.lidx]
      refine le_antisymm (Lay.idx_mono W1.maxle) ?_
      rw [← ht]; exact Lay.idx_mono hMraw
    have hb : h.lidx h.maxValue = 0 := B.lidx_max W
    have hMpos := W.lidx_top_pos
    have hp : 0 < 2 ^ h.unitMag := by positivity
    have hdvd : 2 ^ h.unitMag ∣ 2 ^ 64 := pow_dvd_pow 2 (by have := W.sum62; omega)
    have hlow : h'.maxValue = M / 2 ^ h.unitMag * 2 ^ h.unitMag + (2 ^ h.unitMag - 1) := by
      rcases hraw with hraw | ⟨p, hp1, -, hb2⟩
      · rw [hraw, E.cfg.lidx, E.cfg.lidx, hb] at hidx; omega
      · have hpM := hMax p hp1
        rw [hb2, W.ummask, or_mask_val] at hMraw ⊢
        have h3 : p.1 / 2 ^ h.unitMag ≤ M / 2 ^ h.unitMag := Nat.div_le_div_right hpM
        have h4 : M / 2 ^ h.unitMag ≤ p.1 / 2 ^ h.unitMag := by
          rw [← Nat.lt_succ_iff, Nat.div_lt_iff_lt_mul hp, Nat.succ_mul]
          omega
        rw [le_antisymm h3 h4]
    unfold Hist.lmax
    have hU : U64MAX = 18446744073709551615 := rfl
    rw [if_neg (by omega)]
    have hiff : h'.maxValue = U64MAX ↔ U64MAX ≤ M + u := by
      rw [hlow, ← hu]
      obtain ⟨k, hk⟩ := hdvd
      have hdm := Nat.div_add_mod M (2 ^ h.unitMag)
      have hlt := Nat.mod_lt M hp
      generalize 2 ^ h.unitMag = w at *
      generalize hq : M / w = q at *
      have hw64 : w * k = 18446744073709551616 := by rw [← hk]; norm_num
      constructor
      · intro h5
        have : w * q = q * w := Nat.mul_comm _ _
        omega
      · intro h5
        have hc : w * q = q * w := Nat.mul_comm _ _
        have : k = q + 1 := by
          have a1 : w * k < w * (q + 2) := by rw [Nat.mul_add]; omega
          have a2 : w * q < w * k := by omega
          have := Nat.lt_of_mul_lt_mul_left a1
          have := Nat.lt_of_mul_lt_mul_left a2
          omega
        rw [this, Nat.mul_add] at hw64
        omega
    by_cases hc : h'.maxValue = U64MAX
    · rw [if_pos (hiff.mp hc), hc]; unfold Hist.lhi; rw [if_pos rfl]
    · rw [if_neg (fun h5 => hc (hiff.mpr h5))]
      exact lhi_top (top_end W1 W1.maxle hidx) hc

/-- C13, `min_nz()` in every case: the lowest equivalent of the smallest value `m` recorded that is not equivalent
to 0, except that for `m = u64::MAX` it is `u64::MAX` itself; and `u64::MAX` if there is no such value. -/
theorem C13_min_nz_exact {h h' : Hist T} (R : Reachable fp T h) (B : Blank h) {l : List (Nat × Nat)}
    (hl : ∀ p ∈ l, p.1 ≤ U64MAX ∧ p.2 ≤ T.max) (e : recordSeq l h = .ok (h', .ok ())) :
    ∃ x, h'.minNz = .ok x ∧
      ((∀ p ∈ l, Equiv h p.1 0) → x = U64MAX) ∧
      (∀ m, (∃ p ∈ l, p.1 = m) → ¬ Equiv h m 0 → (∀ p ∈ l, ¬ Equiv h p.1 0 → m ≤ p.1) →
        (m = U64MAX → x = U64MAX) ∧ (m ≠ U64MAX → h'.lowestEquivalent m = .ok x)) := by
  have W := R.wf
  obtain ⟨h1, r1, e1, W1, hr⟩ := W.recordSeq_spec l hl
  have e2 := e
  rw [e1] at e2; cases e2
  obtain ⟨E, -⟩ := hr
  obtain ⟨-, hraw, -, hle⟩ := W.recordSeq_raw hl e
  have hs := B.min_sentinel W
  have hz0 : h.lidx 0 = 0 := Lay.idx_zero
  have hmask : ∀ v, v ≤ U64MAX → (¬ Equiv h v 0 ↔ h.unitMagMask < v) := by
    intro v hv
    rw [W.equiv_iff hv (by decide), hz0, W.ummask, Lay.idx_eq_zero_iff]
    have : 0 < 2 ^ h.unitMag := by positivity
    omega
  refine ⟨_, W1.minNz_eq, fun hall => ?_, fun m hm hnz hmin => ⟨fun htop => ?_, fun htop => ?_⟩⟩
  · have : h'.minNonZero = U64MAX := by
      rcases hraw with hraw | ⟨p, hp, -, b⟩
      · rw [hraw, hs]
      · exact absurd (hall p hp) ((hmask _ (hl p hp).1).mpr b)
    unfold Hist.lminNz; rw [if_pos this]
  · have : h'.minNonZero = U64MAX := by
      rcases hraw with hraw | ⟨p, hp, a, b⟩
      · rw [hraw, hs]
      · have := hmin p hp ((hmask _ (hl p hp).1).mpr b)
        omega
    unfold Hist.lminNz; rw [if_pos this]
  · obtain ⟨p, hp, rfl⟩ := hm
    have hpl := (hl p hp).1
    have h3 := hle p hp ((hmask _ hpl).mp hnz)
    rw [W.equiv_iff hpl (by decide), hz0] at hnz
    have hidx : h.lidx h'.minNonZero = h.lidx p.1 := by
      rw [E.min, hs]
      obtain ⟨b1, b2, b3⟩ := minAfter_bounds h l (h.lidx U64MAX)
      refine Nat.le_antisymm (b2 p hp hnz) (b3 _ (Lay.idx_mono hpl) (fun q hq hne => Lay.idx_mono (hmin q hq ?_)))
      rw [W.equiv_iff (hl q hq).1 (by decide), hz0]; exact hne
    rw [← E.cfg.lidx, ← E.cfg.lidx] at hidx
    rw [lowestEquivalent_eq W1.toLayoutOK hpl]
    refine congrArg Except.ok ?_
    unfold Hist.lminNz
    rw [if_neg (by omega)]
    exact (Lay.lo_eq_iff.mpr hidx).symm

/-- C13, `min()` in every case: after recording non-zero counts, the lowest equivalent of the smallest value `m`
recorded, except that for `m = u64::MAX` it is `u64::MAX` itself. -/
theorem C13_min_exact {h h' : Hist T} (R : Reachable fp T h) (B : Blank h) {l : List (Nat × Nat)}
    (hl : ∀ p ∈ l, p.1 ≤ U64MAX ∧ p.2 ≤ T.max) (hpos : ∀ p ∈ l, 0 < p.2)
    (e : recordSeq l h = .ok (h', .ok ())) {m : Nat} (hm : ∃ p ∈ l, p.1 = m) (hmin : ∀ p ∈ l, m ≤ p.1) :
    ∃ x, h'.min = .ok x ∧ (m = U64MAX → x = U64MAX) ∧ (m ≠ U64MAX → h'.lowestEquivalent m = .ok x) := by
  by_cases ht : Equiv h m U64MAX
  · have W := R.wf
    have hz0 : h.lidx 0 = 0 := Lay.idx_zero
    have hmle : m ≤ U64MAX := by obtain ⟨p, hp, rfl⟩ := hm; exact (hl p hp).1
    rw [W.equiv_iff hmle le_rfl] at ht
    have hpos' := W.lidx_top_pos
    obtain ⟨h1, r1, e1, W1, hr⟩ := W.recordSeq_spec l hl
    have e2 := e
    rw [e1] at e2; cases e2
    obtain ⟨E, -⟩ := hr
    have hall : ∀ q ∈ l, h.lidx q.1 ≠ 0 := by
      intro q hq hc
      have h1 : h.lidx m ≤ h.lidx q.1 := Lay.idx_mono (hmin q hq)
      omega
    have hh0 : h.hits l 0 = 0 := by
      unfold Hist.hits
      apply List.sum_eq_zero
      intro x hx
      rw [List.mem_map] at hx
      obtain ⟨q, hq, rfl⟩ := hx
      rw [if_neg (hall q hq)]
    have hc0 : h'.counts.getD 0 0 = 0 := by
      rw [E.counts, B.getD W, hh0, Nat.zero_add]; exact Nat.zero_min _
    have htot : h'.totalCount ≠ 0 := by
      obtain ⟨p, hp, rfl⟩ := hm
      rw [E.total]
      have h1 := hpos p hp
      have h2 : p.2 ≤ (l.map Prod.snd).sum := mem_le_sum (List.mem_map.mpr ⟨p, hp, rfl⟩)
      have hU : U64MAX = 18446744073709551615 := rfl
      omega
    obtain ⟨x, x1, -, x2⟩ := C13_min_nz_exact R B hl e
    have h3 := x2 m hm (by rw [W.equiv_iff hmle (by decide), hz0]; omega) (fun q hq _ => hmin q hq)
    rw [W1.minNz_eq] at x1
    rw [W1.min_eq, if_neg (by rw [hc0]; simp [htot])]
    exact ⟨x, x1, h3⟩
  · obtain ⟨x, x1, x2⟩ := C13_min_partial R B hl hpos e hm hmin ht
    refine ⟨x, x1, fun hc => ?_, fun _ => x2⟩
    rw [hc] at ht
    exact absurd ((R.wf.equiv_iff le_rfl le_rfl).mpr rfl) ht

/-- an instance: a value next to `u64::MAX`, where `max()` and `min()` differ from the ends of its class -/
example : Blank (demo.auto true) ∧
    (∃ h', recordSeq [(U64MAX - 3, 1), (U64MAX, 2)] (demo.auto true) = .ok (h', .ok ())
      ∧ h'.max = .ok U64MAX ∧ h'.min = .ok (2 ^ 63)) := by
  refine ⟨⟨by decide, by decide, 0, by decide, by decide, by decide⟩, ?_⟩
  exact ⟨_, rfl, by decide +kernel, by decide +kernel⟩

/-- C17, `max()` in every case: it is the larger of the two, except that a source whose `max()` is `u64::MAX - 1` and the larger
one makes it `u64::MAX` if the unit is above 1. -/
theorem C17_max_exact {h s h' : Hist T} (R : Reachable fp T h) (Rs : Reachable fp T s) (S : SameSettings h s)
    (e : h.add s = .ok (h', .ok ())) (hn : h.len ≠ 0) (hs : s.len ≠ 0) {a b : Nat} (ha : h.max = .ok a) (hb : s.max = .ok b) :
    h'.max = .ok (if a < b ∧ b = U64MAX - 1 ∧ h.highestEquivalent 0 ≠ .ok 0 then U64MAX else max a b) := by
  have hmx : s.max ≠ .ok U64MAX ∨ h.isAutoResize = true := by
    by_contra hc
    rw [not_or, not_not] at hc
    obtain ⟨h1, r, e1, -, hr⟩ := R.wf.add_spec Rs.wf
    rw [e] at e1
    cases e1
    rcases hr with ⟨h0, -⟩ | ⟨-, ht, -⟩
    · exact hs h0
    · have h2 := (R.wf.same_ltop Rs.wf S.low S.high S.sigfig).mpr (by
        have := hc.1
        rw [Rs.wf.max_eq] at this
        exact Except.ok.inj this)
      have h3 := ht h2
      apply hc.2
      exact h3
  by_cases hx : b = U64MAX - 1 → h.highestEquivalent 0 = .ok 0
  · obtain ⟨g, e1, -, -, h3, -⟩ := C17_add_same_partial R Rs S hmx
    rw [e] at e1
    cases e1
    rw [h3 a b hn hs ha hb hx, if_neg]
    rintro ⟨-, h4, h5⟩
    exact h5 (hx h4)
  · rw [Classical.not_imp] at hx
    obtain ⟨hb1, hz⟩ := hx
    obtain ⟨h1, r, e1, W', hr⟩ := R.wf.add_spec Rs.wf
    rw [e] at e1
    cases e1
    rcases hr with ⟨h0, -⟩ | ⟨-, -, hcfg, -, -, -, -, -, hstat⟩
    · exact absurd h0 hs
    have hm := R.wf.same_matching Rs.wf S.low S.high S.sigfig
    obtain ⟨h1, -⟩ := hstat ⟨hm.1, hn⟩
    rw [R.wf.max_eq] at ha
    rw [Rs.wf.max_eq] at hb
    have ha : h.lmax = a := Except.ok.inj ha
    have hb : s.lmax = b := Except.ok.inj hb
    rw [ha, hb] at h1
    rw [W'.max_eq]
    refine congrArg Except.ok ?_
    have hU : U64MAX = 18446744073709551615 := rfl
    by_cases hlt : a < b
    · rw [if_pos hlt] at h1
      rw [if_pos ⟨hlt, hb1, hz⟩]
      have hum : h.unitMag ≠ 0 := fun hc => hz (R.wf.unit_one_iff.mpr hc)
      have hp : 2 ^ 1 ≤ 2 ^ h.unitMag := Nat.pow_le_pow_right (by norm_num) (by omega)
      have hp2 : 2 ^ h.unitMag ∣ 2 ^ 64 := pow_dvd_pow 2 (by have := R.wf.sum62; omega)
      have h2 : h'.maxValue = U64MAX := by
        rw [h1, R.wf.ummask, or_mask_val, hb1]
        obtain ⟨k, hk⟩ := hp2
        generalize 2 ^ h.unitMag = w at *
        have hk' : w * k = 18446744073709551616 := by rw [← hk]; norm_num
        have h3 : (U64MAX - 1) / w = k - 1 := by
          rw [Nat.div_eq_iff (by omega)]
          have h4 : (k - 1) * w = w * k - w := by rw [Nat.sub_mul, Nat.mul_comm, Nat.one_mul]
          omega
        rw [h3, Nat.sub_mul, Nat.mul_comm, Nat.one_mul, hk', hU]
        have : w ≤ w * k := Nat.le_mul_of_pos_right _ (by
          rcases Nat.eq_zero_or_pos k with h0 | h0
          · rw [h0] at hk'; omega
          · exact h0)
        omega
      unfold Hist.lmax Hist.lhi
      rw [h2, if_neg (by omega), if_pos rfl]
    · rw [if_neg hlt] at h1
      rw [if_neg (fun hc => hlt hc.1)]
      have : h'.lmax = h.lmax := by
        unfold Hist.lmax Hist.lhi Hist.llo Hist.lwid
        rw [h1, hcfg.um, hcfg.mag]
      rw [this]; omega

end Hdr
