import Verif.Props.SameSamples
import Verif.Props.Wire

/-!
# C110: a histogram can be rebuilt from the items of its iterators
-/

namespace Hdr

variable {T : CounterTy} {fp : Fp}

/-- what an iterator reported, as recordings: `value_iterated_to` and `count_since_last_iteration` of every item -/
def reRecord (items : List IterValue) : List (Nat × Nat) :=
  items.map fun it => (it.valueIteratedTo, it.countSinceLastIteration)

theorem reRecord_of {h : Hist T} {f : Cls → Nat} {a : List Cls} {b : List IterValue}
    (hab : List.Forall₂ (fun c v => IterValue.OfClass h c (f c) v) a b) : reRecord b = a.map fun c => (c.hi, c.count) := by
  induction hab with
  | nil => rfl
  | cons hv _ ih =>
    unfold reRecord at ih ⊢
    rw [List.map_cons, List.map_cons, ih, hv.1, hv.2.2.1]

theorem hits_filter {h : Hist T} (l : List Cls) (j : Nat) :
    h.hits ((l.filter fun c => decide (c.count ≠ 0)).map fun c => (c.hi, c.count)) j = h.hits (l.map fun c => (c.hi, c.count)) j := by
  induction l with
  | nil => rfl
  | cons c l ih =>
    rw [List.filter_cons, List.map_cons, hits_cons, ← ih]
    by_cases hc : c.count = 0
    · simp [hc]
    · rw [if_pos (by simpa using hc), List.map_cons, hits_cons]

theorem numberAll_filter (l : List Cls) :
    numberAll ((l.filter fun c => decide (c.count ≠ 0)).map fun c => (c.hi, c.count)) = numberAll (l.map fun c => (c.hi, c.count)) := by
  induction l with
  | nil => rfl
  | cons c l ih =>
    unfold numberAll at ih ⊢
    rw [List.filter_cons, List.map_cons, List.map_cons, List.sum_cons, ← ih]
    by_cases hc : c.count = 0
    · simp [hc]
    · rw [if_pos (by simpa using hc), List.map_cons, List.map_cons, List.sum_cons]

theorem WF.lidx_hi {h : Hist T} (W : WF fp h) {i : Nat} (hi : i < h.counts.length) : h.lidx (h.lcls i).hi = i :=
  (lidx_lhi (W.lval_le' hi)).trans Lay.idx_val

theorem WF.hits_classes {h : Hist T} (W : WF fp h) (j : Nat) :
    h.hits (h.contents.map fun c => (c.hi, c.count)) j = h.counts.getD j 0 := by
  rw [W.contents_eq, List.map_map]
  have key : ∀ n, n ≤ h.counts.length →
      h.hits ((List.range n).map ((fun c => (c.hi, c.count)) ∘ h.lcls)) j = if j < n then h.counts.getD j 0 else 0 := by
    intro n
    induction n with
    | zero => intro _; simp [Hist.hits]
    | succ n ih =>
      intro hn
      have ih := ih (by omega)
      rw [List.range_succ, List.map_append, hits_eq_number, number_append, ← hits_eq_number, ← hits_eq_number, ih]
      simp only [List.map_cons, List.map_nil, Function.comp_apply]
      rw [hits_cons]
      simp only
      rw [W.lidx_hi (by omega)]
      have e : (h.lcls n).count = h.counts.getD n 0 := rfl
      rw [e]
      have e0 : h.hits [] j = 0 := rfl
      rw [e0]
      by_cases hj : n = j
      · subst hj; simp
      · rw [if_neg hj]
        by_cases h1 : j < n
        · rw [if_pos h1, if_pos (by omega)]; rfl
        · rw [if_neg h1, if_neg (by omega)]
  rw [key _ le_rfl]
  by_cases hj : j < h.counts.length
  · rw [if_pos hj]
  · rw [if_neg hj]
    symm
    simp only [List.getD_eq_getElem?_getD]
    rw [List.getElem?_eq_none (by omega)]
    rfl

theorem WF.numberAll_classes {h : Hist T} (W : WF fp h) : numberAll (h.contents.map fun c => (c.hi, c.count)) = h.counts.sum := by
  unfold numberAll
  rw [List.map_map]
  exact W.sum_classes W.contents

/-- the items of `iter_recorded`, as recordings -/
theorem reRecord_recorded {h : Hist T} (R : Reachable fp T h) : ∃ items,
    (∀ fuel, h.distinctValues < fuel → h.iterRecorded fuel = .ok items) ∧ reRecord items = Cls.nonempty h.contents := by
  obtain ⟨items, h1, h2, -⟩ := C29_iter_recorded R R.wf.contents
  exact ⟨items, h1, reRecord_of h2⟩

theorem mem_nonempty {h : Hist T} (W : WF fp h) {p : Nat × Nat} (hp : p ∈ Cls.nonempty h.contents) :
    ∃ i, i < h.counts.length ∧ p = ((h.lcls i).hi, h.counts.getD i 0) ∧ p.2 ≠ 0 := by
  unfold Cls.nonempty at hp
  obtain ⟨c, hc, rfl⟩ := List.mem_map.mp hp
  obtain ⟨hc, h0⟩ := List.mem_filter.mp hc
  obtain ⟨i, hi, rfl⟩ := (W.mem_classes W.contents).mp hc
  exact ⟨i, hi, rfl, by simpa using h0⟩

theorem nonempty_valid {h : Hist T} (W : WF fp h) : ∀ p ∈ Cls.nonempty h.contents, p.1 ≤ U64MAX ∧ p.2 ≤ T.max := by
  intro p hp
  obtain ⟨i, hi, rfl, -⟩ := mem_nonempty W hp
  exact ⟨lhi_le, W.getD_le i⟩

theorem nonempty_contains {h : Hist T} (W : WF fp h) {l : List (Nat × Nat)} (H : Contains h l) :
    Contains h (Cls.nonempty h.contents) := by
  refine holds_of_slots W ?_ (fun i => ?_) ?_
  · intro p hp
    obtain ⟨i, hi, rfl, -⟩ := mem_nonempty W hp
    rw [W.lidx_hi hi]
    exact hi
  · unfold Cls.nonempty
    rw [hits_filter, W.hits_classes]
  · unfold Cls.nonempty
    rw [numberAll_filter, W.numberAll_classes]
    have := H.sum W
    have hl : h.totalCount = numberAll l := H.len
    rw [hl, this]

/-- the total of a histogram that holds samples is the sum of its counters -/
theorem Contains.exact {h : Hist T} (W : WF fp h) {l : List (Nat × Nat)} (H : Contains h l) :
    h.totalCount = min h.counts.sum U64MAX := by
  have h1 := H.sum W
  have h2 : h.totalCount = numberAll l := H.len
  have h3 : h.totalCount ≤ U64MAX := W.tot
  omega

/-! ### the claims -/

/-- C110 (1): what `iter_recorded` reports are the samples the histogram holds, up to equivalence. -/
theorem C110_items {h : Hist T} (R : Reachable fp T h) {l : List (Nat × Nat)} (H : Contains h l) : ∃ items,
    (∀ fuel, h.distinctValues < fuel → h.iterRecorded fuel = .ok items) ∧ Contains h (reRecord items) := by
  obtain ⟨items, h1, h2⟩ := reRecord_recorded R
  exact ⟨items, h1, by rw [h2]; exact nonempty_contains R.wf H⟩

theorem WF.recordSeq_covered {g : Hist T} (W : WF fp g) {l : List (Nat × Nat)} (hl : ∀ p ∈ l, p.1 ≤ U64MAX ∧ p.2 ≤ T.max)
    (hc : ∀ p ∈ l, g.lidx p.1 < g.counts.length) :
    ∃ g', recordSeq l g = .ok (g', .ok ()) ∧ g'.highestTrackable = g.highestTrackable ∧ g'.autoResize = g.autoResize ∧
      g'.counts.length = g.counts.length := by
  induction l generalizing g with
  | nil => exact ⟨g, rfl, rfl, rfl, rfl⟩
  | cons p l ih =>
    obtain ⟨v, c⟩ := p
    have hvc : v ≤ U64MAX ∧ c ≤ T.max := hl (v, c) (by simp)
    have hv : g.lidx v < g.counts.length := hc (v, c) (by simp)
    rw [recordSeq_cons, W.recordN_eq hvc.1 hvc.2, if_pos (Or.inl hv), M.ok_bind]
    simp only
    obtain ⟨W1, c1, -⟩ := W.step (c := c) hvc.1
    have hg : g.growTo v = g := by unfold Hist.growTo; rw [if_pos hv]
    rw [hg] at W1 c1 ⊢
    have hlen : (g.recorded v c).counts.length = g.counts.length := by simp only [Hist.recorded, List.length_set]
    obtain ⟨g', e, a1, a2, a3⟩ := ih W1 (fun p hp => hl p (by simp [hp])) (fun p hp => by
      rw [c1.lidx, hlen]; exact hc p (by simp [hp]))
    exact ⟨g', e, a1, a2.trans c1.auto, a3.trans hlen⟩

theorem same_counts {h g : Hist T} (R : Reachable fp T h) (R' : Reachable fp T g) (hlow : g.low = h.low) (hsig : g.sigfig = h.sigfig)
    (hc : g.counts = h.counts) {v : Nat} (hv : v ≤ U64MAX) : g.countAt v = h.countAt v := by
  obtain ⟨s1, s2⟩ := R'.wf.same_slots R.wf hlow hsig
  rw [R'.wf.countAt_eq hv, R.wf.countAt_eq hv, hc]
  have : g.lidx v = h.lidx v := by unfold Hist.lidx; rw [s1, s2]
  rw [this]

/-- recording, into the empty histogram of the same configuration, a list that has the counts of `h` in every class -/
theorem rebuild_from {h : Hist T} (R : Reachable fp T h) {l : List (Nat × Nat)} (H : Contains h l) {rs : List (Nat × Nat)}
    (hval : ∀ p ∈ rs, p.1 ≤ U64MAX ∧ p.2 ≤ T.max) (hin : ∀ p ∈ rs, h.lidx p.1 < h.counts.length)
    (hhit : ∀ j, h.hits rs j = h.counts.getD j 0) (hall : numberAll rs = h.counts.sum) : ∃ g g',
    Hist.newFrom fp T h = .ok g ∧ recordSeq rs g = .ok (g', .ok ()) ∧ Reachable fp T g' ∧ Contains g' l ∧
    g'.low = h.low ∧ g'.high = h.high ∧ g'.sigfig = h.sigfig ∧ g'.isAutoResize = h.isAutoResize ∧
    g'.len = h.len ∧ g'.counts = h.counts := by
  have W := R.wf
  obtain ⟨g, eg, Wg, g0, -, -, ga, glow, ghigh, gsig, gum, gmag, -, glen⟩ := W.newFrom_eq (T := T)
  have Rg : Reachable fp T g := .newFrom R eg
  have hidx : ∀ v, g.lidx v = h.lidx v := fun v => by unfold Hist.lidx; rw [gum, gmag]
  have hcov : ∀ p ∈ rs, g.lidx p.1 < g.counts.length := fun p hp => by
    rw [hidx, glen]
    exact hin p hp
  obtain ⟨g', eg', ehigh, eauto, elen⟩ := Wg.recordSeq_covered hval hcov
  have R' : Reachable fp T g' := reachable_recordSeq Rg hval eg'
  have W' := R'.wf
  obtain ⟨x, r, ex, -, hr⟩ := Wg.recordSeq_spec rs hval
  rw [eg'] at ex
  cases ex
  obtain ⟨E, -⟩ := hr
  have hidx' : ∀ v, g'.lidx v = h.lidx v := fun v => (E.cfg.lidx v).trans (hidx v)
  have hhits : ∀ (m : List (Nat × Nat)) j, g.hits m j = h.hits m j := fun m j => by unfold Hist.hits; simp only [hidx]
  have hhits' : ∀ (m : List (Nat × Nat)) j, g'.hits m j = h.hits m j := fun m j => by unfold Hist.hits; simp only [hidx']
  have hcnt : ∀ j, g'.counts.getD j 0 = h.counts.getD j 0 := fun j => by
    rw [E.counts, Wg.getD_zero_of_empty g0, hhits, hhit]
    have := W.getD_le j
    omega
  have hlen : g'.totalCount = h.totalCount := by
    rw [E.total, g0]
    have h1 : h.totalCount = numberAll rs := by
      have h3 : h.totalCount = numberAll l := H.len
      rw [hall, H.sum W, h3]
    have h2 := W.tot
    unfold numberAll at h1
    rw [← h1]
    omega
  have hcl : g'.counts.length = h.counts.length := elen.trans glen
  refine ⟨g, g', eg, eg', R', ?_, ?_, ?_, ?_, ?_, hlen, ?_⟩
  · refine holds_of_slots W' (fun p hp => ?_) (fun i => ?_) ?_
    · rw [hidx', hcl]; exact H.lidx W hp
    · rw [hcnt, hhits']
      by_cases hi : i < h.counts.length
      · exact H.slot W hi
      · have e0 : h.counts.getD i 0 = 0 := by
          simp only [List.getD_eq_getElem?_getD]
          rw [List.getElem?_eq_none (by omega)]
          rfl
        rw [e0, hits_eq_number]
        by_contra hne
        obtain ⟨p, hp, rfl, -⟩ := number_pos (Ne.symm hne)
        exact hi (H.lidx W hp)
    · exact hlen.trans H.len
  · exact E.cfg.low.trans glow
  · exact ehigh.trans ghigh
  · exact E.cfg.sig.trans gsig
  · exact eauto.trans ga
  · refine List.ext_getElem hcl fun i h1 h2 => ?_
    have := hcnt i
    simpa [h1, h2] using this

/-- C110 (2): recording the items of `iter_recorded` into the empty histogram `new_from` makes always succeeds and gives a histogram
of the same configuration which holds the same samples: every count, `len()`, and (`C104_same`) every answer computed from them is
the same. -/
theorem C110_rebuild {h : Hist T} (R : Reachable fp T h) {l : List (Nat × Nat)} (H : Contains h l) : ∃ items g g',
    (∀ fuel, h.distinctValues < fuel → h.iterRecorded fuel = .ok items) ∧ Hist.newFrom fp T h = .ok g ∧
    recordSeq (reRecord items) g = .ok (g', .ok ()) ∧ Reachable fp T g' ∧ Contains g' l ∧
    g'.low = h.low ∧ g'.high = h.high ∧ g'.sigfig = h.sigfig ∧ g'.isAutoResize = h.isAutoResize ∧
    g'.distinctValues = h.distinctValues ∧ g'.len = h.len ∧ ∀ v, v ≤ U64MAX → g'.countAt v = h.countAt v := by
  have W := R.wf
  obtain ⟨items, hit, er⟩ := reRecord_recorded R
  obtain ⟨g, g', eg, eg', R', H', a1, a2, a3, a4, a5, a6⟩ := rebuild_from R H (nonempty_valid W)
    (fun p hp => by
      obtain ⟨i, hi, rfl, -⟩ := mem_nonempty W hp
      rw [W.lidx_hi hi]
      exact hi)
    (fun j => by unfold Cls.nonempty; rw [hits_filter, W.hits_classes])
    (by unfold Cls.nonempty; rw [numberAll_filter, W.numberAll_classes])
  refine ⟨items, g, g', hit, eg, by rw [er]; exact eg', R', H', a1, a2, a3, a4, congrArg List.length a6, a5, ?_⟩
  exact fun v hv => same_counts R R' a1 a3 a6 hv

/-- C110 (3): the same with `iter_all`, whose items include the empty classes. -/
theorem C110_rebuild_all {h : Hist T} (R : Reachable fp T h) {l : List (Nat × Nat)} (H : Contains h l) : ∃ items g g',
    (∀ fuel, h.distinctValues < fuel → h.iterAll fuel = .ok items) ∧ Hist.newFrom fp T h = .ok g ∧
    recordSeq (reRecord items) g = .ok (g', .ok ()) ∧ Reachable fp T g' ∧ Contains g' l ∧
    g'.low = h.low ∧ g'.high = h.high ∧ g'.sigfig = h.sigfig ∧ g'.isAutoResize = h.isAutoResize ∧
    g'.distinctValues = h.distinctValues ∧ g'.len = h.len ∧ ∀ v, v ≤ U64MAX → g'.countAt v = h.countAt v := by
  have W := R.wf
  obtain ⟨items, hit, hF, -⟩ := C30_iter_all R W.contents
  have er := reRecord_of hF
  have hm : ∀ p ∈ h.contents.map fun c => (c.hi, c.count), ∃ i, i < h.counts.length ∧ p = ((h.lcls i).hi, h.counts.getD i 0) := by
    intro p hp
    obtain ⟨c, hc, rfl⟩ := List.mem_map.mp hp
    obtain ⟨i, hi, rfl⟩ := (W.mem_classes W.contents).mp hc
    exact ⟨i, hi, rfl⟩
  obtain ⟨g, g', eg, eg', R', H', a1, a2, a3, a4, a5, a6⟩ := rebuild_from R H (rs := h.contents.map fun c => (c.hi, c.count))
    (fun p hp => by
      obtain ⟨i, hi, rfl⟩ := hm p hp
      exact ⟨lhi_le, W.getD_le i⟩)
    (fun p hp => by
      obtain ⟨i, hi, rfl⟩ := hm p hp
      rw [W.lidx_hi hi]
      exact hi)
    W.hits_classes W.numberAll_classes
  refine ⟨items, g, g', hit, eg, by rw [er]; exact eg', R', H', a1, a2, a3, a4, congrArg List.length a6, a5, ?_⟩
  exact fun v hv => same_counts R R' a1 a3 a6 hv

/-- C110 (4): if no sample is in the class of `u64::MAX`, then the histogram rebuilt from
`iter_recorded` is `==` to the original, either way, exactly if `max()` and `min_nz()` of the original are those of its non-empty
classes (as they are after recording values, see C36; they need not be, see `C110_zero_refuted`). -/
theorem C110_equal_partial {h : Hist T} (R : Reachable fp T h) {l : List (Nat × Nat)} (H : Contains h l) (h0 : 0 < numberAll l)
    (htop : ∀ p ∈ l, p.2 ≠ 0 → ¬ Equiv h p.1 U64MAX) : ∃ items g g',
    (∀ fuel, h.distinctValues < fuel → h.iterRecorded fuel = .ok items) ∧ Hist.newFrom fp T h = .ok g ∧
    recordSeq (reRecord items) g = .ok (g', .ok ()) ∧ (h.eq g' = .ok true ↔ ExactStats h h.contents) ∧
    (g'.eq h = .ok true ↔ ExactStats h h.contents) := by
  have W := R.wf
  obtain ⟨items, hit, er⟩ := reRecord_recorded R
  obtain ⟨g, g', eg, eg', R', H', a1, a2, a3, a4, a5, a6⟩ := rebuild_from R H (nonempty_valid W)
    (fun p hp => by
      obtain ⟨i, hi, rfl, -⟩ := mem_nonempty W hp
      rw [W.lidx_hi hi]
      exact hi)
    (fun j => by unfold Cls.nonempty; rw [hits_filter, W.hits_classes])
    (by unfold Cls.nonempty; rw [numberAll_filter, W.numberAll_classes])
  refine ⟨items, g, g', hit, eg, by rw [er]; exact eg', ?_⟩
  have W' := R'.wf
  have Rg : Reachable fp T g := .newFrom R eg
  have Wg := Rg.wf
  obtain ⟨gx, egx, F⟩ := C02_fresh_from (T := T) R
  rw [eg] at egx
  cases egx
  have B : Blank g := ⟨F.len, F.minNz, 0, by omega, F.max, (Wg.equiv_iff (by omega) (by omega)).mpr rfl⟩
  obtain ⟨s1, s2⟩ := W'.same_slots W a1 a3
  obtain ⟨t1, t2⟩ := Wg.same_slots W F.low F.sigfig
  have hcls : g'.contents = h.contents := by
    rw [W.contents_eq, W'.contents_eq, a6]
    refine List.map_congr_left fun i _ => ?_
    unfold Hist.lcls Hist.lhi Hist.lval Hist.llo Hist.lwid
    rw [s1, s2, a6]
  have hidx : ∀ v, g.lidx v = h.lidx v := fun v => by unfold Hist.lidx; rw [t1, t2]
  have hsome : ∃ p, p ∈ Cls.nonempty h.contents := by
    by_contra hc
    have he : Cls.nonempty h.contents = [] := List.eq_nil_iff_forall_not_mem.mpr fun p hp => hc ⟨p, hp⟩
    have h1 := (nonempty_contains W H).len
    have h2 := H.len
    rw [he] at h1
    have h3 : numberAll [] = 0 := rfl
    omega
  obtain ⟨E', -⟩ := recordSeq_exactStats_of_total Rg B (nonempty_valid W)
    (fun p hp => by
      obtain ⟨i, hi, rfl, h1⟩ := mem_nonempty W hp
      exact Nat.pos_of_ne_zero h1) eg' W'.contents (H'.exact W')
    (fun p hp hc => by
      obtain ⟨i, hi, rfl, h1⟩ := mem_nonempty W hp
      have hc : Equiv g (h.lcls i).hi U64MAX := hc
      have hle : (h.lcls i).hi ≤ U64MAX := lhi_le
      rw [Wg.equiv_iff hle le_rfl, hidx, hidx, W.lidx_hi hi] at hc
      have h1 : h.counts.getD i 0 ≠ 0 := h1
      rw [H.slot W hi, hits_eq_number] at h1
      obtain ⟨q, hq, e, hq0⟩ := number_pos h1
      exact htop q hq hq0 ((W.equiv_iff (H.le W hq) le_rfl).mpr (e.trans hc)))
    (by
      by_contra hc
      push Not at hc
      obtain ⟨hu, hz⟩ := hc
      obtain ⟨p, hp⟩ := hsome
      have h1 := hz p hp
      obtain ⟨i, hi, rfl, -⟩ := mem_nonempty W hp
      have h1 : (h.lcls i).hi = 0 := h1
      have h2 := W.lidx_hi hi
      rw [h1] at h2
      have h3 : h.lidx 0 = 0 := Lay.idx_zero
      have h4 : i = 0 := by omega
      subst h4
      have h5 : h.lval 0 = 0 := Lay.val_zero
      have h6 : h.highestEquivalent 0 = .ok 0 := by
        rw [highestEquivalent_eq W.toLayoutOK (by omega)]
        have : h.lhi (h.lval 0) = 0 := h1
        rw [h5] at this
        rw [this]
      exact hu (t1.trans (W.unit_one h6)))
  rw [hcls] at E'
  have e2 := (W'.exactStats_iff (cs := h.contents) (hcls ▸ W'.contents)).mp E'
  have hval : ∀ i, g'.lval i = h.lval i := fun i => by unfold Hist.lval; rw [s1, s2]
  have hhi : ∀ i, g'.lhi (g'.lval i) = h.lhi (h.lval i) := fun i => by
    unfold Hist.lhi Hist.lval Hist.llo Hist.lwid
    rw [s1, s2]
  have hmax : g'.lmax = (match lastNz h.counts 0 with | none => 0 | some i => h.lhi (h.lval i)) := by
    rw [e2.2.1, a6]
    cases lastNz h.counts 0 with
    | none => rfl
    | some i => exact hhi i
  have hmin : g'.lminNz = h.scanMin := by
    rw [e2.2.2]
    unfold Hist.scanMin
    rw [a6]
    cases firstNz h.counts 0 with
    | none => rfl
    | some i => exact hval i
  have htot : h.totalCount = min h.counts.sum U64MAX := by
    have h1 : g'.totalCount = h.totalCount := a5
    rw [← h1, e2.1, a6]
  obtain ⟨b, eb, hb⟩ := W.eq_spec W'
  obtain ⟨c, ec, hc⟩ := W'.eq_spec W
  have inj : ∀ x : Bool, ((Except.ok x : M Bool) = .ok true) ↔ x = true := fun x => by cases x <;> simp
  rw [eb, ec, inj, inj, hb, hc, W.exactStats_iff W.contents, hmax, hmin]
  constructor
  · constructor
    · rintro ⟨-, -, -, x, y, -⟩
      exact ⟨htot, x, y⟩
    · rintro ⟨-, x, y⟩
      exact ⟨a1.symm, a3.symm, a5.symm, x, y, by rw [a6]⟩
  · constructor
    · rintro ⟨-, -, -, x, y, -⟩
      exact ⟨htot, x.symm, y.symm⟩
    · rintro ⟨-, x, y⟩
      exact ⟨a1, a3, a5, x.symm, y.symm, by rw [a6]⟩

/-- the hypotheses of `C110_equal_partial` -/
example : Reachable Fp.ideal .u8 demo3 ∧ Contains demo3 [(5, 3), (9, 200), (0, 1)] ∧ ExactStats demo3 demo3.contents ∧
    ∀ p ∈ [(5, 3), (9, 200), (0, 1)], p.2 ≠ 0 → ¬ Equiv demo3 p.1 U64MAX :=
  ⟨demo3_reachable, demo3_holds, (demo3_reachable.wf.exactStats_iff demo3_reachable.wf.contents).mpr (by decide +kernel),
    by decide +kernel⟩

/-- rebuilding, with the last value of every class -/
def rebuilt (h : Hist T) (items : M (List IterValue)) : M (Hist T) := do
  let its ← items
  let g ← Hist.newFrom Fp.ideal T h
  let (g, _) ← recordSeq (reRecord its) g
  pure g

/-- With a unit above 1 and only zeros recorded, `max()` is 0, after rebuilding it is the last value equivalent to 0, and the two
histograms differ under `==`. -/
theorem C110_zero_refuted : ∃ h g, demoU.recordN 0 1 = .ok (h, .ok ()) ∧ rebuilt h (h.iterRecorded 10) = .ok g ∧
    h.max = .ok 0 ∧ g.max = .ok 3 ∧ h.eq g = .ok false := by
  have h : (match demoU.recordN 0 1 with
    | .ok (h, .ok ()) => (match rebuilt h (h.iterRecorded 10) with
      | .ok g => decide (h.max = .ok 0 ∧ g.max = .ok 3 ∧ h.eq g = .ok false)
      | _ => false)
    | _ => false) = true := by decide +kernel
  split at h
  · rename_i h1 e1
    split at h
    · rename_i g e2
      exact ⟨h1, g, e1, e2, of_decide_eq_true h⟩
    · cases h
  · cases h

/-- Rebuilt from `iter_all`, a histogram has the highest covered value as its `max()`: recording a value with count 0 counts as
recording it. -/
theorem C110_all_refuted : ∃ h g, demo.recordN 5 3 = .ok (h, .ok ()) ∧ rebuilt h (h.iterAll 10) = .ok g ∧
    h.max = .ok 7 ∧ g.max = .ok 15 ∧ h.minNz = .ok 4 ∧ g.minNz = .ok 1 ∧ h.eq g = .ok false := by
  have h : (match demo.recordN 5 3 with
    | .ok (h, .ok ()) => (match rebuilt h (h.iterAll 10) with
      | .ok g => decide (h.max = .ok 7 ∧ g.max = .ok 15 ∧ h.minNz = .ok 4 ∧ g.minNz = .ok 1 ∧ h.eq g = .ok false)
      | _ => false)
    | _ => false) = true := by decide +kernel
  split at h
  · rename_i h1 e1
    split at h
    · rename_i g e2
      exact ⟨h1, g, e1, e2, of_decide_eq_true h⟩
    · cases h
  · cases h

end Hdr
