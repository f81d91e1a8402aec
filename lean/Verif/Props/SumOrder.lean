import Verif.Props.Merged

/-!
# C119: sums do not depend on the order or the grouping
-/

namespace Hdr

variable {T : CounterTy} {fp : Fp}

/-- a histogram of the configuration and auto-resize setting of `h0`, with exact statistics and no sample in the class of `u64::MAX` -/
structure Part (fp : Fp) (h0 a : Hist T) : Prop where
  reach : Reachable fp T a
  settings : SameSettings h0 a
  auto : a.isAutoResize = h0.isAutoResize
  exact : ExactStats a a.contents
  below : ∀ mx, a.max = .ok mx → ¬ Equiv a mx U64MAX

private theorem Part.cfg {h0 a : Hist T} (W0 : WF fp h0) (P : Part fp h0 a) : SameConfig h0 a := by
  obtain ⟨s1, s2⟩ := P.reach.wf.same_layout W0 P.settings.low.symm P.settings.sigfig.symm
  exact ⟨P.auto, P.settings.low.symm, P.settings.sigfig.symm, s1, s2⟩

private theorem Part.len_eq {h0 a : Hist T} (W0 : WF fp h0) (P : Part fp h0 a) : a.counts.length = h0.counts.length := by
  have W := P.reach.wf
  rw [W.len, W0.len, (P.cfg W0).mag, W.same_bc W0 P.settings.low.symm P.settings.high.symm P.settings.sigfig.symm]

/-- its non-empty classes as samples -/
private theorem Part.made {h0 a : Hist T} (W0 : WF fp h0) (P : Part fp h0 a) (hl : a.len < U64MAX) :
    Made fp h0 a (Cls.nonempty a.contents) := by
  have W := P.reach.wf
  refine ⟨P.reach, holds_of_slots W ?_ (fun i => ?_) ?_, P.exact, P.cfg W0, P.settings.high.symm⟩
  · intro p hp
    obtain ⟨i, hi, rfl, -⟩ := mem_nonempty W hp
    rw [W.lidx_hi hi]
    exact hi
  · unfold Cls.nonempty
    rw [hits_filter, W.hits_classes]
  · unfold Cls.nonempty
    rw [numberAll_filter, W.numberAll_classes]
    have h1 := ((W.exactStats_iff W.contents).mp P.exact).1
    have h2 : a.totalCount < U64MAX := hl
    omega

private theorem Part.notTop {h0 a : Hist T} (P : Part fp h0 a) : a.lidx a.lmax ≠ a.lidx U64MAX := by
  have W := P.reach.wf
  have := P.below _ W.max_eq
  rwa [W.equiv_iff lmax_le le_rfl] at this

private theorem Part.samples {h0 a : Hist T} (W0 : WF fp h0) (P : Part fp h0 a) :
    ∀ p ∈ Cls.nonempty a.contents, h0.Covers p.1 ∧ 0 < p.2 ∧ h0.lidx p.1 ≠ h0.lidx U64MAX := by
  intro p hp
  have W := P.reach.wf
  have c := P.cfg W0
  obtain ⟨i, hi, rfl, h0'⟩ := mem_nonempty W hp
  have hx : h0.lidx (a.lcls i).hi = i := by rw [← c.lidx]; exact W.lidx_hi hi
  have h0' : a.counts.getD i 0 ≠ 0 := h0'
  refine ⟨(W0.covers_iff _).mpr ?_, Nat.pos_of_ne_zero h0', ?_⟩
  · show h0.lidx (a.lcls i).hi < _
    rw [hx, ← P.len_eq W0]; exact hi
  · show h0.lidx (a.lcls i).hi ≠ _
    rw [hx, ← c.lidx]
    have hn := P.notTop
    have hle : a.lidx a.lmax ≤ a.lidx U64MAX := Lay.idx_mono lmax_le
    have hs := ((W.exactStats_iff W.contents).mp P.exact).2.1
    have hlast := lastNz_spec a.counts 0
    cases hj : lastNz a.counts 0 with
    | none => rw [hj] at hlast; exact absurd (hlast i) h0'
    | some j =>
      rw [hj] at hlast hs
      obtain ⟨-, hjl, -, hm⟩ := hlast
      rw [Nat.sub_zero] at hjl
      have := hm i h0'
      have e : a.lidx a.lmax = j := by
        rw [hs, lidx_lhi (W.lval_le hjl)]; exact Lay.idx_val
      omega

/-- the samples of all parts -/
private def samplesOf (hs : List (Hist T)) : List (List (Nat × Nat)) := hs.map fun a => Cls.nonempty a.contents

private theorem number_samplesOf {h0 : Hist T} (W0 : WF fp h0) {w : Nat} (hw : w ≤ U64MAX) : ∀ {hs : List (Hist T)} {ns : List Nat},
    (∀ a ∈ hs, Part fp h0 a) → List.Forall₂ (fun a n => HasCount a w n) hs ns →
    (number (samplesOf hs).flatten fun v => Equiv h0 v w) = ns.sum := by
  intro hs ns hp F
  induction F with
  | nil => rfl
  | @cons a n hs ns hn _ ih =>
    have P := hp a (by simp)
    have W := P.reach.wf
    have ih := ih fun a ha => hp a (by simp [ha])
    unfold samplesOf at ih ⊢
    rw [List.map_cons, List.flatten_cons, number_append, ih, List.sum_cons]
    congr 1
    rw [number_equiv W0 (fun p hp => (nonempty_valid W p hp).1) hw, hits_eq_number]
    rw [W.hasCount_iff hw] at hn
    rw [hn, ← W.hits_classes, hits_eq_number]
    simp only [(P.cfg W0).lidx]
    have h1 := hits_filter (h := h0) a.contents (h0.lidx w)
    rw [hits_eq_number, hits_eq_number] at h1
    exact h1

private theorem counts_of {h0 : Hist T} {w : Nat} (hw : w ≤ U64MAX) : ∀ {hs : List (Hist T)}, (∀ a ∈ hs, Part fp h0 a) →
    List.Forall₂ (fun a n => HasCount a w n) hs (hs.map fun a => a.counts.getD (a.lidx w) 0) := by
  intro hs hp
  induction hs with
  | nil => exact .nil
  | cons a hs ih =>
    exact .cons (((hp a (by simp)).reach.wf.hasCount_iff hw).mpr rfl) (ih fun a ha => hp a (by simp [ha]))

private theorem total_of {h0 : Hist T} (W0 : WF fp h0) : ∀ {hs : List (Hist T)}, (∀ a ∈ hs, Part fp h0 a) →
    (hs.map Hist.len).sum < U64MAX → numberAll (samplesOf hs).flatten = (hs.map Hist.len).sum := by
  intro hs hp ht
  induction hs with
  | nil => rfl
  | cons a hs ih =>
    rw [List.map_cons, List.sum_cons] at ht
    have ih := ih (fun a ha => hp a (by simp [ha])) (by omega)
    unfold samplesOf at ih ⊢
    rw [List.map_cons, List.flatten_cons, numberAll_append, ih, List.map_cons, List.sum_cons,
      ((hp a (by simp)).made W0 (by omega)).K.len]

private theorem parts_made {h0 : Hist T} (W0 : WF fp h0) : ∀ {hs : List (Hist T)}, (∀ a ∈ hs, Part fp h0 a) →
    (hs.map Hist.len).sum < U64MAX →
    List.Forall₂ (fun l b => Made fp h0 b l ∧ b.lidx b.lmax ≠ b.lidx U64MAX) (samplesOf hs) hs := by
  intro hs hp ht
  induction hs with
  | nil => exact .nil
  | cons a hs ih =>
    rw [List.map_cons, List.sum_cons] at ht
    have P := hp a (by simp)
    exact .cons ⟨P.made W0 (by omega), P.notTop⟩ (ih (fun a ha => hp a (by simp [ha])) (by omega))

private theorem mem_samplesOf {h0 : Hist T} (W0 : WF fp h0) {hs : List (Hist T)} (hp : ∀ a ∈ hs, Part fp h0 a) :
    ∀ p ∈ (samplesOf hs).flatten, h0.Covers p.1 ∧ 0 < p.2 ∧ h0.lidx p.1 ≠ h0.lidx U64MAX := by
  intro p hq
  obtain ⟨l, hl, hq⟩ := List.mem_flatten.mp hq
  obtain ⟨a, ha, rfl⟩ := List.mem_map.mp hl
  exact (hp a ha).samples W0 p hq

private theorem Made.notTop {h0 a : Hist T} {k : List (Nat × Nat)} (A : Made fp h0 a k) (htop : ∀ p ∈ k, h0.lidx p.1 ≠ h0.lidx U64MAX) :
    a.lidx a.lmax ≠ a.lidx U64MAX := by
  have W := A.R.wf
  obtain ⟨-, x2, -⟩ := (W.exactStats_iff W.contents).mp A.X
  have hlast := lastNz_spec a.counts 0
  cases hi : lastNz a.counts 0 with
  | none =>
    rw [hi] at x2
    rw [x2, show a.lidx 0 = 0 from Lay.idx_zero]
    intro q
    have := W.minpos
    have h1 : a.lidx a.minNonZero ≤ a.lidx U64MAX := Lay.idx_mono W.minle
    omega
  | some i =>
    rw [hi] at x2 hlast
    obtain ⟨-, hil, hin, -⟩ := hlast
    rw [Nat.sub_zero] at hil hin
    dsimp only at x2
    rw [x2, lidx_lhi (W.lval_le hil), show a.lidx (a.lval i) = i from Lay.idx_val]
    rw [A.K.slot W hil, hits_eq_number] at hin
    obtain ⟨p, hp, e1, -⟩ := number_pos hin
    intro q
    refine htop p hp ?_
    rw [← A.c.lidx, ← A.c.lidx, e1, q]

private theorem sum_core {h0 : Hist T} (W0 : WF fp h0) {ls : List (List (Nat × Nat))} {gs : List (Hist T)}
    (F : List.Forall₂ (fun l b => Made fp h0 b l ∧ b.lidx b.lmax ≠ b.lidx U64MAX) ls gs) (hne : gs ≠ [])
    (hl : ∀ p ∈ ls.flatten, h0.Covers p.1 ∧ 0 < p.2)
    (hfit : ∀ w, w ≤ U64MAX → (number ls.flatten fun v => Equiv h0 v w) ≤ T.max) (htot : numberAll ls.flatten ≤ U64MAX) :
    ∃ m, Hist.sum fp gs = .ok m ∧ Made fp h0 m ls.flatten := by
  cases F with
  | nil => exact absurd rfl hne
  | @cons l b ls gs hb F => exact sum_parts W0 F hb.1 hl hfit htot

private theorem Made.perm {h0 a : Hist T} {k k' : List (Nat × Nat)} (A : Made fp h0 a k) (p : k.Perm k') : Made fp h0 a k' :=
  ⟨A.R, ⟨fun q hq => A.K.covered q (p.mem_iff.mpr hq), fun w hw => by rw [A.K.count w hw, number_perm p], by
    rw [A.K.len]; unfold numberAll; exact (p.map _).sum_eq⟩, A.X, A.c, A.t⟩

/-- C119 (1): the histograms `hs` have the configuration of `h0`, exact statistics and no sample in the class of `u64::MAX`; no counter of
their sum overflows. Then `iter::Sum` over them holds for every value what they hold together, and over the same histograms in
any other order it gives a histogram `==` to it that no program can tell apart from it. -/
theorem C119_order {h0 : Hist T} (R0 : Reachable fp T h0) {hs hs' : List (Hist T)} (hne : hs ≠ []) (hp : ∀ a ∈ hs, Part fp h0 a)
    (hfit : ∀ w ns, w ≤ U64MAX → List.Forall₂ (fun a n => HasCount a w n) hs ns → ns.sum ≤ T.max)
    (htot : (hs.map Hist.len).sum < U64MAX) (perm : hs.Perm hs') :
    ∃ m m', Hist.sum fp hs = .ok m ∧ Hist.sum fp hs' = .ok m' ∧ m.eq m' = .ok true ∧ Alike fp ⟨T, m⟩ ⟨T, m'⟩ ∧
      Part fp h0 m ∧ m.len = (hs.map Hist.len).sum ∧
      ∀ w ns, w ≤ U64MAX → List.Forall₂ (fun a n => HasCount a w n) hs ns → HasCount m w ns.sum := by
  have W0 := R0.wf
  have hp' : ∀ a ∈ hs', Part fp h0 a := fun a ha => hp a (perm.mem_iff.mpr ha)
  have pf : (samplesOf hs).flatten.Perm (samplesOf hs').flatten := (perm.map _).flatten
  have hl := mem_samplesOf W0 hp
  have htot' : (hs'.map Hist.len).sum < U64MAX := by rw [← (perm.map Hist.len).sum_eq]; exact htot
  have hall := total_of W0 hp htot
  have hf : ∀ w, w ≤ U64MAX → (number (samplesOf hs).flatten fun v => Equiv h0 v w) ≤ T.max := fun w hw => by
    rw [number_samplesOf W0 hw hp (counts_of hw hp)]
    exact hfit w _ hw (counts_of hw hp)
  obtain ⟨m, em, A⟩ := sum_core W0 (parts_made W0 hp htot) hne (fun p hq => ⟨(hl p hq).1, (hl p hq).2.1⟩) hf (by omega)
  obtain ⟨m', em', A'⟩ := sum_core W0 (parts_made W0 hp' htot')
    (by rintro rfl; exact hne perm.eq_nil) (fun p hq => ⟨(hl p (pf.mem_iff.mpr hq)).1, (hl p (pf.mem_iff.mpr hq)).2.1⟩)
    (fun w hw => by rw [← number_perm pf]; exact hf w hw) (by rw [← A.K.len, (A.perm pf).K.len] at hall; omega)
  obtain ⟨q1, q2⟩ := A.alike (A'.perm pf.symm)
  have Wm := A.R.wf
  refine ⟨m, m', em, em', q1, q2, ⟨A.R, ⟨A.c.low.symm, A.t.symm, A.c.sig.symm⟩, A.c.auto, A.X, fun mx q => ?_⟩,
    A.K.len.trans hall, fun w ns hw F => ?_⟩
  · rw [Wm.max_eq] at q
    rw [← Except.ok.inj q, Wm.equiv_iff lmax_le le_rfl]
    exact A.notTop fun p hq => (hl p hq).2.2
  · rw [Wm.hasCount_iff hw, A.K.all Wm, ← number_samplesOf W0 hw hp F,
      number_equiv W0 (fun p hq => A.K.le Wm hq) hw, hits_eq_number, hits_eq_number]
    simp only [A.c.lidx]

private theorem samplesOf_flatten (gss : List (List (Hist T))) :
    (samplesOf gss.flatten).flatten = (gss.map fun gs => (samplesOf gs).flatten).flatten := by
  induction gss with
  | nil => rfl
  | cons gs gss ih =>
    unfold samplesOf at ih ⊢
    rw [List.flatten_cons, List.map_append, List.flatten_append, ih, List.map_cons, List.flatten_cons]

private theorem groups_made {h0 : Hist T} (W0 : WF fp h0) : ∀ {gss : List (List (Hist T))}, (∀ gs ∈ gss, gs ≠ []) →
    (∀ a ∈ gss.flatten, Part fp h0 a) →
    (∀ w, w ≤ U64MAX → (number (gss.map fun gs => (samplesOf gs).flatten).flatten fun v => Equiv h0 v w) ≤ T.max) →
    (gss.flatten.map Hist.len).sum < U64MAX →
    ∃ ms, List.Forall₂ (fun gs m => Hist.sum fp gs = .ok m) gss ms ∧
      List.Forall₂ (fun l b => Made fp h0 b l ∧ b.lidx b.lmax ≠ b.lidx U64MAX) (gss.map fun gs => (samplesOf gs).flatten) ms := by
  intro gss hne hp hf ht
  induction gss with
  | nil => exact ⟨[], .nil, .nil⟩
  | cons gs gss ih =>
    rw [List.map_cons, List.flatten_cons] at hf
    rw [List.flatten_cons, List.map_append, List.sum_append] at ht
    have n1 := fun w => number_append (samplesOf gs).flatten (gss.map fun gs => (samplesOf gs).flatten).flatten fun v => Equiv h0 v w
    have hg : ∀ a ∈ gs, Part fp h0 a := fun a ha => hp a (by simp [ha])
    have hl := mem_samplesOf W0 hg
    have hall := total_of W0 hg (by omega)
    obtain ⟨ms, F, G⟩ := ih (fun gs h => hne gs (by simp [h])) (fun a ha => hp a (by rw [List.flatten_cons]; exact List.mem_append_right _ ha))
      (fun w hw => by have := hf w hw; have := n1 w; omega) (by omega)
    obtain ⟨m, em, A⟩ := sum_core W0 (parts_made W0 hg (by omega)) (hne gs (by simp)) (fun p hq => ⟨(hl p hq).1, (hl p hq).2.1⟩)
      (fun w hw => by have := hf w hw; have := n1 w; omega) (by omega)
    exact ⟨m :: ms, .cons em F, .cons ⟨A, A.notTop fun p hq => (hl p hq).2.2⟩ G⟩

/-- C119 (2): nor does the sum depend on how the histograms are grouped: summing up any groups of them (none empty) and then the sums gives a
histogram `==` to the sum of all of them, and no program can tell the two apart. -/
theorem C119_group {h0 : Hist T} (R0 : Reachable fp T h0) {gss : List (List (Hist T))} (hne : gss ≠ []) (hne' : ∀ gs ∈ gss, gs ≠ [])
    (hp : ∀ a ∈ gss.flatten, Part fp h0 a)
    (hfit : ∀ w ns, w ≤ U64MAX → List.Forall₂ (fun a n => HasCount a w n) gss.flatten ns → ns.sum ≤ T.max)
    (htot : (gss.flatten.map Hist.len).sum < U64MAX) :
    ∃ ms m m', List.Forall₂ (fun gs m => Hist.sum fp gs = .ok m) gss ms ∧ Hist.sum fp ms = .ok m ∧
      Hist.sum fp gss.flatten = .ok m' ∧ m.eq m' = .ok true ∧ Alike fp ⟨T, m⟩ ⟨T, m'⟩ := by
  have W0 := R0.wf
  have hl := mem_samplesOf W0 hp
  have hall := total_of W0 hp htot
  have hf : ∀ w, w ≤ U64MAX → (number (samplesOf gss.flatten).flatten fun v => Equiv h0 v w) ≤ T.max := fun w hw => by
    rw [number_samplesOf W0 hw hp (counts_of hw hp)]
    exact hfit w _ hw (counts_of hw hp)
  have hne2 : gss.flatten ≠ [] := fun q => by
    cases gss with
    | nil => exact hne rfl
    | cons gs gss => exact hne' gs (by simp) (by simp at q; exact q.1)
  obtain ⟨m', em', A'⟩ := sum_core W0 (parts_made W0 hp htot) hne2 (fun p hq => ⟨(hl p hq).1, (hl p hq).2.1⟩) hf (by omega)
  rw [samplesOf_flatten] at A' hf hl hall
  obtain ⟨ms, F, G⟩ := groups_made W0 hne' hp hf htot
  obtain ⟨m, em, A⟩ := sum_core W0 G (fun q => by subst q; cases F; exact hne rfl)
    (fun p hq => ⟨(hl p hq).1, (hl p hq).2.1⟩) hf (by omega)
  obtain ⟨q1, q2⟩ := A.alike A'
  exact ⟨ms, m, m', F, em, em', q1, q2⟩

private theorem part_demo {h : Hist .u8} {l : List (Nat × Nat)} (e : recordSeq l demo = .ok (h, .ok ()))
    (hl : ∀ p ∈ l, p.1 ≤ U64MAX ∧ p.2 ≤ CounterTy.max .u8)
    (hx : h.totalCount = min h.counts.sum U64MAX ∧
      h.lmax = (match lastNz h.counts 0 with | none => 0 | some i => h.lhi (h.lval i)) ∧ h.lminNz = h.scanMin)
    (hs : demo.low = h.low ∧ demo.high = h.high ∧ demo.sigfig = h.sigfig ∧ h.isAutoResize = demo.isAutoResize)
    (hm : h.max = .ok 15 ∨ h.max = .ok 7) (hq : ¬ Equiv h 15 U64MAX ∧ ¬ Equiv h 7 U64MAX) : Part Fp.ideal demo h := by
  have R : Reachable Fp.ideal .u8 h := reachable_recordSeq demo_reachable hl e
  refine ⟨R, ⟨hs.1, hs.2.1, hs.2.2.1⟩, hs.2.2.2, (R.wf.exactStats_iff R.wf.contents).mpr hx, fun mx q => ?_⟩
  rcases hm with hm | hm <;> rw [hm] at q <;> cases q
  · exact hq.1
  · exact hq.2

/-- three histograms, in two orders and in two groups; one counter of the sum is exactly full -/
example : ∃ a b c m m' ms n : Hist .u8, recordSeq [(5, 3), (9, 200)] demo = .ok (a, .ok ()) ∧ recordSeq [(0, 1), (8, 50)] demo = .ok (b, .ok ()) ∧
    recordSeq [(9, 5), (2, 7)] demo = .ok (c, .ok ()) ∧ Hist.sum Fp.ideal [a, b, c] = .ok m ∧ Hist.sum Fp.ideal [c, a, b] = .ok m' ∧
    m.eq m' = .ok true ∧ Alike Fp.ideal ⟨.u8, m⟩ ⟨.u8, m'⟩ ∧ Hist.sum Fp.ideal [b, c] = .ok ms ∧ Hist.sum Fp.ideal [a, ms] = .ok n ∧
    n.eq m = .ok true := by
  obtain ⟨a, ea, ha⟩ : ∃ h, recordSeq [(5, 3), (9, 200)] demo = .ok (h, .ok ()) ∧
    h = { demo with maxValue := 9, minNonZero := 5, totalCount := 203, counts := [0, 0, 0, 3, 200] } := okThen (by decide +kernel)
  obtain ⟨b, eb, hb⟩ : ∃ h, recordSeq [(0, 1), (8, 50)] demo = .ok (h, .ok ()) ∧
    h = { demo with maxValue := 8, minNonZero := 8, totalCount := 51, counts := [1, 0, 0, 0, 50] } := okThen (by decide +kernel)
  obtain ⟨c, ec, hc⟩ : ∃ h, recordSeq [(9, 5), (2, 7)] demo = .ok (h, .ok ()) ∧
    h = { demo with maxValue := 9, minNonZero := 2, totalCount := 12, counts := [0, 0, 7, 0, 5] } := okThen (by decide +kernel)
  have Pa : Part Fp.ideal demo a := part_demo ea (by decide) (by rw [ha]; decide +kernel) (by rw [ha]; decide)
    (.inl (by rw [ha]; decide)) (by rw [ha]; unfold Equiv; decide)
  have Pb : Part Fp.ideal demo b := part_demo eb (by decide) (by rw [hb]; decide +kernel) (by rw [hb]; decide)
    (.inl (by rw [hb]; decide)) (by rw [hb]; unfold Equiv; decide)
  have Pc : Part Fp.ideal demo c := part_demo ec (by decide) (by rw [hc]; decide +kernel) (by rw [hc]; decide)
    (.inl (by rw [hc]; decide)) (by rw [hc]; unfold Equiv; decide)
  have hp : ∀ x ∈ [a, b, c], Part Fp.ideal demo x := by
    intro x hx
    simp only [List.mem_cons, List.not_mem_nil, or_false] at hx
    rcases hx with rfl | rfl | rfl <;> assumption
  have ht : ([a, b, c].map Hist.len).sum < U64MAX := by rw [ha, hb, hc]; decide
  have hf : ∀ w ns, w ≤ U64MAX → List.Forall₂ (fun x n => HasCount x w n) [a, b, c] ns → ns.sum ≤ CounterTy.max .u8 := by
    intro w ns hw F
    rcases F with _ | ⟨h1, F⟩
    rcases F with _ | ⟨h2, F⟩
    rcases F with _ | ⟨h3, F⟩
    cases F
    rw [Pa.reach.wf.hasCount_iff hw] at h1
    rw [Pb.reach.wf.hasCount_iff hw] at h2
    rw [Pc.reach.wf.hasCount_iff hw] at h3
    have eb' : b.lidx w = a.lidx w := by rw [ha, hb]
    have ec' : c.lidx w = a.lidx w := by rw [ha, hc]
    rw [eb'] at h2
    rw [ec'] at h3
    rw [h1, h2, h3, ha, hb, hc]
    dsimp only
    generalize Hist.lidx _ w = j
    match j with
    | 0 => decide
    | 1 => decide
    | 2 => decide
    | 3 => decide
    | 4 => decide
    | _ + 5 => exact Nat.zero_le _
  obtain ⟨m, m', e1, e2, e3, e4, -⟩ := C119_order demo_reachable (by simp) hp hf ht (hs' := [c, a, b])
    ((List.perm_append_comm (l₁ := [a, b]) (l₂ := [c])))
  obtain ⟨ms, n, m2, F, e5, e6, e7, -⟩ := C119_group demo_reachable (gss := [[a], [b, c]]) (by simp) (by simp) hp hf ht
  rcases F with _ | ⟨f1, F⟩
  rcases F with _ | ⟨f2, F⟩
  cases F
  have : m2 = m := by
    have e6 : Hist.sum Fp.ideal [a, b, c] = .ok m2 := e6
    rw [e1] at e6; cases e6; rfl
  subst this
  cases f1
  exact ⟨a, b, c, _, m', _, n, ea, eb, ec, e1, e2, e3, e4, f2, e5, e7⟩

/-- Without the condition on the class of `u64::MAX` the order matters: with a 5 in one histogram and a `u64::MAX` in the other, both of
configuration 1 to `u64::MAX`, summing up succeeds if the second comes first and panics if it comes second. -/
theorem C119_top_matters : ∃ a b m, demoTop.recordN 5 1 = .ok (a, .ok ()) ∧ demoTop.recordN U64MAX 1 = .ok (b, .ok ()) ∧
    Hist.sum Fp.ideal [b, a] = .ok m ∧ m.len = 2 ∧ Hist.sum Fp.ideal [a, b] = .error .expect := by
  obtain ⟨a, e1, ha⟩ : ∃ a, demoTop.recordN 5 1 = .ok (a, .ok ()) ∧
    a = { demoTop with maxValue := 5, minNonZero := 5, totalCount := 1, counts := [0, 0, 0, 1] ++ List.replicate 61 0 } :=
    okThen (by decide +kernel)
  obtain ⟨m, e2, h2⟩ : ∃ m, Hist.sum Fp.ideal [demoTop1, a] = .ok m ∧ m.len = 2 := by
    subst ha
    have : ∃ m, Hist.sum Fp.ideal [demoTop1, { demoTop with maxValue := 5, minNonZero := 5, totalCount := 1, counts := [0, 0, 0, 1] ++ List.replicate 61 0 }] =
        .ok m ∧ m.len = 2 := by
      refine ⟨{ demoTop1 with minNonZero := 4, totalCount := 2, counts := [0, 0, 0, 1] ++ List.replicate 60 0 ++ [1] }, ?_, rfl⟩
      decide +kernel
    exact this
  refine ⟨a, demoTop1, m, e1, demoTop1_eq, e2, h2, ?_⟩
  subst ha
  decide +kernel

end Hdr
