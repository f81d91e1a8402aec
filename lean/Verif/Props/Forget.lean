import Verif.Props.Correction
import Verif.Props.Requantize
import Verif.Props.SameSamples
import Verif.Props.RecordExact

/-!
# C111: `reset`, `set_to` and `set_to_corrected` leave no trace of what the histogram held
-/

namespace Hdr

variable {T : CounterTy} {fp : Fp}

theorem or_mask {v n : Nat} (hv : v ≤ 2 ^ n - 1) : v ||| (2 ^ n - 1) = 2 ^ n - 1 := by
  have hp : 0 < 2 ^ n := by positivity
  have h1 : v ||| (2 ^ n - 1) < 2 ^ n := Nat.or_lt_two_pow (by omega) (by omega)
  have h2 : 2 ^ n - 1 ≤ v ||| (2 ^ n - 1) := Nat.right_le_or
  omega

theorem counts_of_empty {h : Hist T} (W : WF fp h) (h0 : h.totalCount = 0) : h.counts = List.replicate h.counts.length 0 := by
  refine List.ext_getElem (by simp) fun i h1 _ => ?_
  have := W.getD_zero_of_empty h0 i
  simpa [h1] using this

/-- the fields of an empty reachable histogram are determined by its settings and its tracked values -/
theorem WF.ext_max {h g : Hist T} (W : WF fp h) (W' : WF fp g) (S : SameSettings h g) (ha : h.autoResize = g.autoResize)
    (hn : h.minNonZero = g.minNonZero) (h0 : h.totalCount = 0) (ht : g.totalCount = 0) :
    h = { g with maxValue := h.maxValue } := by
  obtain ⟨s1, s2⟩ := W.same_slots W' S.low S.sigfig
  have hhigh : h.highestTrackable = g.highestTrackable := S.high
  have hbc : h.bucketCount = g.bucketCount := by
    rw [W.bc, W'.bc]
    unfold Hist.lbkt
    rw [s1, s2, hhigh]
  have hcnt : h.counts = g.counts := by
    rw [counts_of_empty W h0, counts_of_empty W' ht, W.len, W'.len, hbc, s2]
  have hlow : h.lowestDiscernible = g.lowestDiscernible := S.low
  have hsig : h.sigDigits = g.sigDigits := S.sigfig
  have e1 : h.subBucketCount = g.subBucketCount := by rw [W.sbc, W'.sbc, s2]
  have e2 : h.subBucketHalfCount = g.subBucketHalfCount := by rw [W.half, W'.half, s2]
  have e3 : h.leadingZeroCountBase = g.leadingZeroCountBase := by rw [W.lzb, W'.lzb, s1, s2]
  have e4 : h.subBucketMask = g.subBucketMask := by rw [W.mask, W'.mask, s1, s2]
  have e5 : h.unitMagMask = g.unitMagMask := by rw [W.ummask, W'.ummask, s1]
  cases h
  cases g
  simp only at *
  subst_vars
  rfl

theorem WF.ext_empty {h g : Hist T} (W : WF fp h) (W' : WF fp g) (S : SameSettings h g) (ha : h.autoResize = g.autoResize)
    (hm : h.maxValue = g.maxValue) (hn : h.minNonZero = g.minNonZero) (h0 : h.totalCount = 0) (ht : g.totalCount = 0) : h = g := by
  rw [W.ext_max W' S ha hn h0 ht, hm]

/-! ### the claims -/

/-- C111 (1): two histograms of the same configuration are the same after `reset()`. -/
theorem C111_reset {h g : Hist T} (R : Reachable fp T h) (R' : Reachable fp T g) (S : SameSettings h g)
    (ha : h.isAutoResize = g.isAutoResize) : h.reset = g.reset := by
  have e5 : h.unitMagMask = g.unitMagMask := by
    rw [R.wf.ummask, R'.wf.ummask, (R.wf.same_slots R'.wf S.low S.sigfig).1]
  refine (Reachable.reset R).wf.ext_empty (Reachable.reset R').wf ⟨S.low, S.high, S.sigfig⟩ ha ?_ rfl rfl rfl
  show ORIGINAL_MAX ||| h.unitMagMask = ORIGINAL_MAX ||| g.unitMagMask
  rw [e5]

/-- C111 (2): `set_to` gives the same result, whatever the target held. -/
theorem C111_set_to {h g s : Hist T} (R : Reachable fp T h) (R' : Reachable fp T g) (S : SameSettings h g)
    (ha : h.isAutoResize = g.isAutoResize) : h.setTo s = g.setTo s := by
  unfold Hist.setTo
  rw [C111_reset R R' S ha]

/-- C111 (3): and so does `set_to_corrected`. -/
theorem C111_set_to_corrected {h g s : Hist T} (R : Reachable fp T h) (R' : Reachable fp T g) (S : SameSettings h g)
    (ha : h.isAutoResize = g.isAutoResize) (interval : Nat) : h.setToCorrected s interval = g.setToCorrected s interval := by
  unfold Hist.setToCorrected
  rw [C111_reset R R' S ha]

/-- C111 (4): after `set_to` the histogram holds what the source passes on, the lowest equivalent value of each of its samples, and
nothing else; the configurations may differ. -/
theorem C111_set_to_samples {h s h' : Hist T} (R : Reachable fp T h) (Rs : Reachable fp T s) {l : List (Nat × Nat)}
    (Hs : Contains s l) (e : h.setTo s = .ok (h', .ok ())) (hpos : ∀ p ∈ l, p.2 ≠ 0) {lo : Nat → Nat}
    (hlo : ∀ p ∈ l, s.lowestEquivalent p.1 = .ok (lo p.1))
    (hfit : ∀ w, w ≤ U64MAX → (number (l.map fun p => (lo p.1, p.2)) fun v => Equiv h v w) ≤ T.max)
    (htot : numberAll l ≤ U64MAX) : Contains h' (l.map fun p => (lo p.1, p.2)) := by
  have Rr : Reachable fp T h.reset := .reset R
  have hq : ∀ v w, Equiv h.reset v w ↔ Equiv h v w := fun v w => Iff.rfl
  exact C103_add (l := []) Rr Rs (C71_empty Rr rfl) Hs e hpos hlo hfit (by simpa using htot)

/-- C111 (5): after `set_to_corrected` it holds the highest equivalent values of the samples of the source and the series hidden
by them, and nothing else. -/
theorem C111_set_to_corrected_samples {h s h' : Hist T} (R : Reachable fp T h) (Rs : Reachable fp T s) {l : List (Nat × Nat)}
    (Hs : Contains s l) (hl : ∀ p ∈ l, p.1 < U64MAX ∧ p.2 ≠ 0) {interval : Nat}
    (e : h.setToCorrected s interval = .ok (h', .ok ()))
    (hfit : ∀ w, w ≤ U64MAX → (number (withHidden interval (reported s l)) fun v => Equiv h v w) ≤ T.max)
    (htot : numberAll (withHidden interval (reported s l)) ≤ U64MAX) : Contains h' (withHidden interval (reported s l)) := by
  have Rr : Reachable fp T h.reset := .reset R
  exact C106_add_correct (l0 := []) Rr Rs (C71_empty Rr rfl) Hs hl e hfit htot

/-- C111 (6): a reset histogram is the new histogram of the same configuration exactly if the unit is 1. -/
theorem C111_new_iff {h : Hist T} (R : Reachable fp T h) :
    Hist.newFrom fp T h = .ok h.reset ↔ h.highestEquivalent 0 = .ok 0 := by
  have W := R.wf
  obtain ⟨g, eg, Wg, g0, gmax, gmin, ga, glow, ghigh, gsig, gum, -⟩ := W.newFrom_eq (T := T)
  have Rr : Reachable fp T h.reset := .reset R
  have hm : h.reset.maxValue = h.unitMagMask := Nat.zero_or _
  rw [eg]
  constructor
  · intro e
    cases e
    rw [hm, W.ummask] at gmax
    have hu : h.unitMag = 0 := by
      by_contra hne
      have : 2 ^ 1 ≤ 2 ^ h.unitMag := Nat.pow_le_pow_right (by omega) (by omega)
      omega
    have h1 := W.highest_zero
    rw [h1, hu]
    rfl
  · intro e
    have hu := W.unit_one e
    refine congrArg _ (Wg.ext_empty Rr.wf ⟨glow, ghigh, gsig⟩ ga ?_ gmin g0 rfl)
    rw [gmax, hm, W.ummask, hu]
    rfl

/-- a histogram and the same with `max` as `reset` leaves it -/
structure OnlyMax (g r : Hist T) : Prop where
  eq : r = { g with maxValue := g.unitMagMask }
  max : g.maxValue = 0

theorem growTo_withMax (g : Hist T) (m v : Nat) :
    ({ g with maxValue := m } : Hist T).growTo v = { g.growTo v with maxValue := m } := by
  unfold Hist.growTo
  by_cases hc : g.lidx v < g.counts.length
  · rw [if_pos hc, if_pos (show ({ g with maxValue := m } : Hist T).lidx v < g.counts.length from hc)]
  · rw [if_neg hc, if_neg (show ¬ ({ g with maxValue := m } : Hist T).lidx v < g.counts.length from hc)]
    rfl

theorem growTo_keeps (g : Hist T) (v : Nat) : (g.growTo v).maxValue = g.maxValue ∧ (g.growTo v).unitMagMask = g.unitMagMask := by
  unfold Hist.growTo
  by_cases hc : g.lidx v < g.counts.length
  · rw [if_pos hc]; exact ⟨rfl, rfl⟩
  · rw [if_neg hc]; exact ⟨rfl, rfl⟩

theorem recorded_withMax (g : Hist T) (m v c : Nat) : ({ g with maxValue := m } : Hist T).recorded v c =
    { g.recorded v c with maxValue := if m < v then v ||| g.unitMagMask else m } := rfl

theorem OnlyMax.record {g r : Hist T} (O : OnlyMax g r) (W : WF fp g) {v c : Nat} :
    (v ≠ 0 → (r.growTo v).recorded v c = (g.growTo v).recorded v c) ∧
    (v = 0 → OnlyMax ((g.growTo v).recorded v c) ((r.growTo v).recorded v c)) := by
  obtain ⟨rfl, h0⟩ := O
  have hmask := W.ummask
  obtain ⟨k1, k2⟩ := growTo_keeps g v
  have hm : ((g.growTo v).recorded v c).maxValue = if 0 < v then v ||| g.unitMagMask else 0 := by
    show (if (g.growTo v).maxValue < v then v ||| (g.growTo v).unitMagMask else (g.growTo v).maxValue) = _
    rw [k1, k2, h0]
  have hu : ((g.growTo v).recorded v c).unitMagMask = g.unitMagMask := k2
  rw [growTo_withMax, recorded_withMax, k2]
  generalize (g.growTo v).recorded v c = x at hm hu
  constructor
  · intro hv
    rw [if_pos (by omega)] at hm
    have : (if g.unitMagMask < v then v ||| g.unitMagMask else g.unitMagMask) = x.maxValue := by
      rw [hm]
      by_cases hb : g.unitMagMask < v
      · rw [if_pos hb]
      · rw [if_neg hb]
        rw [hmask] at hb ⊢
        exact (or_mask (by omega)).symm
    rw [this]
  · intro hv
    subst hv
    refine ⟨?_, by rw [hm]; rfl⟩
    rw [if_neg (by omega)]
    cases x
    simp only at hu ⊢
    rw [hu]

theorem OnlyMax.run {g r : Hist T} (O : OnlyMax g r) (W : WF fp g) (Wr : WF fp r) {l : List (Nat × Nat)}
    (hl : ∀ p ∈ l, p.1 ≤ U64MAX ∧ p.2 ≤ T.max) :
    ∃ g' r' a, recordSeq l g = .ok (g', a) ∧ recordSeq l r = .ok (r', a) ∧ (r' = g' ∨ OnlyMax g' r') ∧
      (a = .ok () → (∃ p ∈ l, p.1 ≠ 0) → r' = g') := by
  induction l generalizing g r with
  | nil => exact ⟨g, r, .ok (), rfl, rfl, Or.inr O, fun _ ⟨p, hp, _⟩ => by simp at hp⟩
  | cons p l ih =>
    obtain ⟨v, c⟩ := p
    have hvc : v ≤ U64MAX ∧ c ≤ T.max := hl (v, c) (by simp)
    have hl' : ∀ p ∈ l, p.1 ≤ U64MAX ∧ p.2 ≤ T.max := fun p hp => hl p (by simp [hp])
    rw [recordSeq_cons, recordSeq_cons, W.recordN_eq hvc.1 hvc.2, Wr.recordN_eq hvc.1 hvc.2]
    have hsame : (r.lidx v < r.counts.length ∨ r.autoResize = true) ↔ (g.lidx v < g.counts.length ∨ g.autoResize = true) := by
      rw [O.eq]
    by_cases hc : g.lidx v < g.counts.length ∨ g.autoResize = true
    · rw [if_pos hc, if_pos (hsame.mpr hc), M.ok_bind, M.ok_bind]
      simp only
      obtain ⟨W1, -⟩ := W.step (c := c) hvc.1
      obtain ⟨Wr1, -⟩ := Wr.step (c := c) hvc.1
      obtain ⟨o1, o2⟩ := O.record W (v := v) (c := c)
      by_cases hv : v = 0
      · obtain ⟨g', r', a, e1, e2, e3, e4⟩ := ih (o2 hv) W1 Wr1 hl'
        refine ⟨g', r', a, e1, e2, e3, fun ha ⟨p, hp, hp0⟩ => e4 ha ⟨p, ?_, hp0⟩⟩
        rcases List.mem_cons.mp hp with rfl | hp
        · exact absurd hv hp0
        · exact hp
      · rw [o1 hv]
        obtain ⟨g', a, e, -, -⟩ := W1.recordSeq_spec l hl'
        exact ⟨g', g', a, e, e, Or.inl rfl, fun _ _ => rfl⟩
    · rw [if_neg hc, if_neg (fun h => hc (hsame.mp h)), M.ok_bind, M.ok_bind]
      exact ⟨g, r, _, rfl, rfl, Or.inr O, fun ha => by cases ha⟩

/-- C111 (7): with any unit, recording values gives the same results, and once a value above 0 is recorded the same histogram, in a
reset histogram as in a new one. Until then they can differ in `max()` only (`C22_reset_max`). -/
theorem C111_as_new {h : Hist T} (R : Reachable fp T h) {l : List (Nat × Nat)} (hl : ∀ p ∈ l, p.1 ≤ U64MAX ∧ p.2 ≤ T.max) :
    ∃ g g' r' a, Hist.newFrom fp T h = .ok g ∧ recordSeq l g = .ok (g', a) ∧ recordSeq l h.reset = .ok (r', a) ∧
      ({ r' with maxValue := 0 } : Hist T) = { g' with maxValue := 0 } ∧ (a = .ok () → (∃ p ∈ l, p.1 ≠ 0) → r' = g') := by
  have W := R.wf
  obtain ⟨g, eg, Wg, g0, gmax, gmin, ga, glow, ghigh, gsig, gum, -⟩ := W.newFrom_eq (T := T)
  have Rr : Reachable fp T h.reset := .reset R
  have hm : h.reset.maxValue = h.unitMagMask := Nat.zero_or _
  have hmask : h.unitMagMask = g.unitMagMask := by rw [W.ummask, Wg.ummask, gum]
  have O : OnlyMax g h.reset := by
    refine ⟨?_, gmax⟩
    have e := Rr.wf.ext_max Wg ⟨glow.symm, ghigh.symm, gsig.symm⟩ ga.symm gmin.symm rfl g0
    rw [hm, hmask] at e
    exact e
  obtain ⟨g', r', a, e1, e2, e3, e4⟩ := O.run Wg Rr.wf hl
  refine ⟨g, g', r', a, eg, e1, e2, ?_, e4⟩
  rcases e3 with rfl | o
  · rfl
  · rw [o.eq]

/-! ### cases -/

/-- the hypotheses of (1) to (3): an empty histogram and one with samples, of the same configuration -/
example : Reachable Fp.ideal .u8 demo ∧ Reachable Fp.ideal .u8 demo3 ∧ SameSettings demo demo3 ∧
    demo.isAutoResize = demo3.isAutoResize ∧ demo ≠ demo3 :=
  ⟨demo_reachable, demo3_reachable, ⟨rfl, rfl, rfl⟩, rfl, by decide⟩

/-- an instance of (4): the target held 15 before -/
example : ∃ h h', demo.recordN 15 1 = .ok (h, .ok ()) ∧ h.setTo demo3 = .ok (h', .ok ()) ∧
    Contains h' [(4, 3), (8, 200), (0, 1)] := by
  obtain ⟨h, e, hh⟩ : ∃ h, demo.recordN 15 1 = .ok (h, .ok ()) ∧ h.setTo demo3 = .ok (demo3, .ok ()) :=
    okThen (by decide +kernel)
  refine ⟨h, demo3, e, hh, ?_⟩
  have R : Reachable Fp.ideal .u8 h := reachable_recordSeq (l := [(15, 1)]) demo_reachable (by decide) (r := .ok ()) (by
    rw [recordSeq_cons, e]; rfl)
  exact C111_set_to_samples (lo := fun v => if v = 5 then 4 else if v = 9 then 8 else 0) R demo3_reachable demo3_holds hh (by decide)
    (by decide +kernel) (fun w _ => le_trans (number_le_all _ _) (by decide)) (by decide)

/-- an instance of (7) with a unit above 1: `max()` differs after recording 0, nothing differs after recording 1 -/
example : ∃ r g r' g', demoU.reset.recordN 0 1 = .ok (r, .ok ()) ∧ demoU.recordN 0 1 = .ok (g, .ok ()) ∧ r.max = .ok 3 ∧
    g.max = .ok 0 ∧ r.recordN 1 1 = .ok (r', .ok ()) ∧ g.recordN 1 1 = .ok (g', .ok ()) ∧ r' = g' ∧ r'.max = .ok 3 := by
  have h : (match demoU.reset.recordN 0 1, demoU.recordN 0 1 with
    | .ok (r, .ok ()), .ok (g, .ok ()) => (match r.recordN 1 1, g.recordN 1 1 with
      | .ok (r', .ok ()), .ok (g', .ok ()) => decide (r.max = .ok 3 ∧ g.max = .ok 0 ∧ r' = g' ∧ r'.max = .ok 3)
      | _, _ => false)
    | _, _ => false) = true := by decide +kernel
  split at h
  · rename_i r g e1 e2
    split at h
    · rename_i r' g' e3 e4
      obtain ⟨a, b, c, d⟩ := of_decide_eq_true h
      exact ⟨r, g, r', g', e1, e2, a, b, e3, e4, c, d⟩
    · cases h
  · cases h

end Hdr
