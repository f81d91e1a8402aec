import Verif.Spec.SyncTotal
import Verif.Props.SyncExt
import Verif.Props.Samples

/-!
# C90: the samples of all threads, in one histogram
-/

namespace Hdr.Sync

variable {T : CounterTy} {fp : Fp}

theorem Fits.left {h : Hist T} {a b : List (Nat × Nat)} (f : Fits h (a ++ b)) : Fits h a := by
  refine ⟨fun w hw => ?_, ?_⟩
  · have := f.1 w hw
    rw [number_append] at this; omega
  · have := f.2
    rw [numberAll_append] at this; omega

theorem Fits.right {h : Hist T} {a b : List (Nat × Nat)} (f : Fits h (a ++ b)) : Fits h b := by
  refine ⟨fun w hw => ?_, ?_⟩
  · have := f.1 w hw
    rw [number_append] at this; omega
  · have := f.2
    rw [numberAll_append] at this; omega

theorem same_equiv {h g : Hist T} (W : WF fp h) (Wg : WF fp g) (c : SameConfig h g) {v w : Nat} (hv : v ≤ U64MAX)
    (hw : w ≤ U64MAX) : Equiv g v w ↔ Equiv h v w := by
  rw [W.equiv_iff hv hw, Wg.equiv_iff hv hw, c.lidx, c.lidx]

/-- a recording is a sequence of accepted recordings of its samples -/
theorem write_recorded {b : Bool} {base : Nat → Nat} {h0 : Hist T} (W : WF fp h0) (w : Write T)
    (x : Hist T × List (Write T)) (hw : w.Plain fp h0) (hr : w.Recording) (L : Keeps fp h0 b base x) :
    ∃ g, w.run x.1 = .ok g ∧ recordSeq (w.samples h0) x.1 = .ok (g, .ok ()) ∧ Keeps fp h0 b base (g, x.2 ++ [w]) := by
  cases w with
  | recordN v c =>
    obtain ⟨hv, hc, hp⟩ := hw
    by_cases ha : h0.autoResize = true ∨ h0.Covers v
    · obtain ⟨g, e, Lg⟩ := L.recordSeq W (w := .recordN v c) (l := [(v, c)]) (by simp [Write.samples, ha])
        (by simpa using ⟨hv, hc⟩) (by simpa using ha) (by
          intro _ h
          rcases hp with hp | hp
          · rw [h] at hp; cases hp
          · simpa using top_lt W hv hp)
      have e' : recordSeq ((Write.recordN v c).samples h0) x.1 = .ok (g, .ok ()) := by
        simp only [Write.samples]; rw [if_pos ha]; exact e
      refine ⟨g, ?_, e', Lg⟩
      simp only [Write.run]
      rw [recordN_seq, e]; rfl
    · refine ⟨x.1, ?_, by simp only [Write.samples]; rw [if_neg ha]; rfl, L.skip (by simp [Write.samples, ha])⟩
      simp only [Write.run]
      rw [L.refused W hv hc ha]; rfl
  | recordNCorrect v c i =>
    obtain ⟨hv, hc, hp⟩ := hw
    by_cases ha : h0.autoResize = true ∨ h0.Covers v
    · obtain ⟨g, e, Lg⟩ := L.recordSeq W (w := .recordNCorrect v c i) (l := (v :: hiddenSeries v i).map fun x => (x, c))
        (by simp only [Write.samples]; rw [if_pos ha]) (correct_valid hv hc) (by
          rcases ha with ha | ha
          · exact Or.inl ha
          · right
            intro p hp
            exact (W.covers_iff _).mpr (correct_lt ((W.covers_iff v).mp ha) p hp)) (by
          intro _ h
          rcases hp with hp | hp
          · rw [h] at hp; cases hp
          · exact correct_lt (top_lt W hv hp))
      have e' : recordSeq ((Write.recordNCorrect v c i).samples h0) x.1 = .ok (g, .ok ()) := by
        simp only [Write.samples]; rw [if_pos ha]; exact e
      refine ⟨g, ?_, e', Lg⟩
      simp only [Write.run]
      rw [recordNCorrect_eq, e]; rfl
    · refine ⟨x.1, ?_, by simp only [Write.samples]; rw [if_neg ha]; rfl, L.skip (by simp only [Write.samples]; rw [if_neg ha])⟩
      simp only [Write.run]
      rw [recordNCorrect_eq, List.map_cons, recordSeq_cons, L.refused W hv hc ha]; rfl
  | saturatingRecordN v c =>
    obtain ⟨hv, hc, hp⟩ := hw
    have hcl : x.1.clampTo v = if h0.Covers v then v else h0.highestTrackable := by
      unfold Hist.clampTo
      rw [L.1.cfg.lidx]
      by_cases hcov : h0.Covers v
      · rw [if_pos hcov, if_pos (lt_of_lt_of_le ((W.covers_iff v).mp hcov) L.1.len)]
      · have ha : h0.autoResize = false := by
          cases h : h0.autoResize
          · rfl
          · rw [if_pos h] at hp; exact absurd hp hcov
        rw [if_neg hcov, L.1.len_eq W ha, if_neg (fun h => hcov ((W.covers_iff v).mpr h)), L.1.high ha]
    have hclc : h0.Covers (if h0.Covers v then v else h0.highestTrackable) := by
      split
      · assumption
      · exact (W.covers_iff _).mpr W.high_cov
    have hcle : (if h0.Covers v then v else h0.highestTrackable) ≤ U64MAX := by
      split
      · exact hv
      · exact W.highmax
    obtain ⟨g, e, Lg⟩ := L.recordSeq W (w := .saturatingRecordN v c)
      (l := [(if h0.Covers v then v else h0.highestTrackable, c)]) rfl
      (by simpa using ⟨hcle, hc⟩) (Or.inr (by simpa using hclc)) (by
        intro _ h
        rw [if_neg (by rw [h]; simp)] at hp
        have ht := top_lt W hv hp
        simp only [List.mem_singleton, forall_eq]
        split
        · exact ht
        · rename_i hcov
          have h1 := W.high_cov
          rw [W.covers_iff] at hcov
          omega)
    have e' : recordSeq ((Write.saturatingRecordN v c).samples h0) x.1 = .ok (g, .ok ()) := e
    refine ⟨g, ?_, e', Lg⟩
    simp only [Write.run]
    rw [L.1.wf.saturatingRecordN_eq hv, hcl]
    rw [← recordN_seq, L.1.wf.recordN_cov hcle hc (by
      rw [L.1.cfg.lidx]; exact lt_of_lt_of_le ((W.covers_iff _).mp hclc) L.1.len)] at e
    cases e; rfl
  | add | addCorrect | subtract => exact hr.elim

theorem samples_valid {h0 : Hist T} (W : WF fp h0) {w : Write T} (hw : w.Plain fp h0) (hr : w.Recording) :
    ∀ p ∈ w.samples h0, p.1 ≤ U64MAX ∧ p.2 ≤ T.max ∧ p.2 ≠ 0 := by
  intro p hp
  have h1 := samples_le W hw p hp
  refine ⟨h1, ?_⟩
  cases w with
  | recordN v c =>
    simp only [Write.samples] at hp
    split at hp
    · simp at hp; subst hp; exact ⟨hw.2.1, hr⟩
    · cases hp
  | recordNCorrect v c i =>
    simp only [Write.samples] at hp
    split at hp
    · obtain ⟨x, -, rfl⟩ := List.mem_map.mp hp; exact ⟨hw.2.1, hr⟩
    · cases hp
  | saturatingRecordN v c =>
    simp only [Write.samples, List.mem_singleton] at hp
    subst hp; exact ⟨hw.2.1, hr⟩
  | add | addCorrect | subtract => exact hr.elim

/-- the histogram holds `l0` and the samples of its writes, unless they are too many for a counter -/
structure Sums (fp : Fp) (h0 : Hist T) (l0 : List (Nat × Nat)) (x : Hist T × List (Write T)) : Prop where
  reach : Reachable fp T x.1
  valid : ∀ p ∈ samplesOf h0 x.2, p.1 ≤ U64MAX ∧ p.2 ≤ T.max ∧ p.2 ≠ 0
  held : Fits h0 (l0 ++ samplesOf h0 x.2) → Contains x.1 (l0 ++ samplesOf h0 x.2)

theorem samplesOf_append (h : Hist T) (a b : List (Write T)) : samplesOf h (a ++ b) = samplesOf h a ++ samplesOf h b := by
  unfold samplesOf; rw [List.flatMap_append]

theorem fits_same {h g : Hist T} (W : WF fp h) (Wg : WF fp g) (c : SameConfig h g) {l : List (Nat × Nat)}
    (hl : ∀ p ∈ l, p.1 ≤ U64MAX) (f : Fits h l) (w : Nat) (hw : w ≤ U64MAX) :
    (number l fun v => Equiv g v w) ≤ T.max := by
  rw [number_congr (Q := fun v => Equiv h v w) fun p hp => same_equiv W Wg c (hl p hp) hw]
  exact f.1 w hw

theorem sums_fresh {h0 : Hist T} {x y : Hist T × List (Write T)} (Rx : Reachable fp T x.1)
    (e : (HistOps.concrete fp T).traced.fresh x = .ok y) : Sums fp h0 [] y := by
  obtain ⟨g, eg, Wg, ht, -⟩ := Rx.wf.newFrom_eq (T := T)
  simp only [HistOps.traced, HistOps.concrete, eg] at e
  cases e
  have Rg : Reachable fp T g := .newFrom Rx eg
  exact ⟨Rg, by simp [samplesOf], fun _ => C71_empty Rg ht⟩

theorem sums_add {h0 : Hist T} (W : WF fp h0) {l0 : List (Nat × Nat)} (hl0 : ∀ p ∈ l0, p.1 ≤ U64MAX) {base : Nat → Nat}
    {m x y : Hist T × List (Write T)} (hm : Holds fp h0 base m) (Sm : Sums fp h0 l0 m) (hx : Local fp h0 x)
    (Sx : Sums fp h0 [] x) (e : (HistOps.concrete fp T).traced.add m x = .ok y) : Sums fp h0 l0 y := by
  simp only [HistOps.traced, HistOps.concrete] at e
  rw [M.bind_eq_ok] at e
  obtain ⟨g, eg, e⟩ := e
  cases e
  unfold addExpect at eg
  rw [M.bind_eq_ok] at eg
  obtain ⟨⟨z, r⟩, ez, eg⟩ := eg
  cases r with
  | error q => cases eg
  | ok u =>
    cases eg
    refine ⟨.add Sm.reach Sx.reach ez, ?_, ?_⟩
    · intro p hp
      dsimp only at hp
      rw [samplesOf_append] at hp
      rcases List.mem_append.mp hp with hp | hp
      · exact Sm.valid p hp
      · exact Sx.valid p hp
    · dsimp only
      rw [samplesOf_append, ← List.append_assoc]
      intro f
      have hc : SameConfig m.1 x.1 :=
        ⟨hx.1.cfg.auto.trans hm.cfg.auto.symm, hx.1.cfg.low.trans hm.cfg.low.symm,
          hx.1.cfg.sig.trans hm.cfg.sig.symm, hx.1.cfg.um.trans hm.cfg.um.symm, hx.1.cfg.mag.trans hm.cfg.mag.symm⟩
      refine C71_add Sm.reach Sx.reach (Sm.held f.left) (Sx.held f.right) ?_ ez (fun p hp => (Sx.valid p hp).2.2) ?_ f.2
      · intro a b ha hb h
        exact (same_equiv hm.wf hx.1.wf hc ha hb).mp h
      · refine fits_same W hm.wf hm.cfg ?_ f
        intro p hp
        rcases List.mem_append.mp hp with hp | hp
        · rcases List.mem_append.mp hp with hp | hp
          · exact hl0 p hp
          · exact (Sm.valid p hp).1
        · exact (Sx.valid p hp).1

theorem sums_write {h0 : Hist T} (W : WF fp h0) {l0 : List (Nat × Nat)} (hl0 : ∀ p ∈ l0, p.1 ≤ U64MAX) {base : Nat → Nat}
    {b : Bool} {w : Write T} {x : Hist T × List (Write T)} (hw : w.Plain fp h0 ∧ w.Recording) (K : Keeps fp h0 b base x)
    (Sx : Sums fp h0 l0 x) : ∃ g, w.run x.1 = .ok g ∧ Keeps fp h0 b base (g, x.2 ++ [w]) ∧ Sums fp h0 l0 (g, x.2 ++ [w]) := by
  obtain ⟨g, e, es, Kg⟩ := write_recorded W w x hw.1 hw.2 K
  refine ⟨g, e, Kg, ?_⟩
  have hv := samples_valid W hw.1 hw.2
  have hs : samplesOf h0 (x.2 ++ [w]) = samplesOf h0 x.2 ++ w.samples h0 := by
    rw [samplesOf_append]; simp [samplesOf]
  refine ⟨reachable_recordSeq Sx.reach (fun p hp => ⟨(hv p hp).1, (hv p hp).2.1⟩) es, ?_, ?_⟩
  · intro p hp
    dsimp only at hp
    rw [hs] at hp
    rcases List.mem_append.mp hp with hp | hp
    · exact Sx.valid p hp
    · exact hv p hp
  · dsimp only
    rw [hs, ← List.append_assoc]
    intro f
    refine C71_record Sx.reach (Sx.held f.left) (fun p hp => ⟨(hv p hp).1, (hv p hp).2.1⟩) es ?_ f.2
    refine fits_same W K.1.wf K.1.cfg ?_ f
    intro p hp
    rcases List.mem_append.mp hp with hp | hp
    · rcases List.mem_append.mp hp with hp | hp
      · exact hl0 p hp
      · exact (Sx.valid p hp).1
    · exact (hv p hp).1

theorem sums_fine {h0 : Hist T} (R : Reachable fp T h0) {l0 : List (Nat × Nat)} (hl0 : ∀ p ∈ l0, p.1 ≤ U64MAX)
    (base : Nat → Nat) :
    Fine (HistOps.concrete fp T).traced (fun w => w.Plain fp h0 ∧ w.Recording)
      (fun x => Holds fp h0 base x ∧ Sums fp h0 l0 x) (fun x => Local fp h0 x ∧ Sums fp h0 [] x) where
  freshM x hx := by
    obtain ⟨y, e, L⟩ := fresh_fine R.wf hx.1
    exact ⟨y, e, L, sums_fresh hx.2.reach e⟩
  freshL x hx := by
    obtain ⟨y, e, L⟩ := fresh_fine R.wf hx.1.1
    exact ⟨y, e, L, sums_fresh hx.2.reach e⟩
  add m x hm hx := by
    obtain ⟨y, e, H⟩ := add_fine R.wf base m x hm.1 hx.1
    exact ⟨y, e, H, sums_add R.wf hl0 hm.1 hm.2 hx.1 hx.2 e⟩
  write w x hw hx := by
    obtain ⟨g, e, K, S⟩ := sums_write (b := true) R.wf (by simp) hw ⟨hx.1.1, fun _ => hx.1.2⟩ hx.2
    refine ⟨(g, x.2 ++ [w]), ?_, ⟨K.1, K.2 rfl⟩, S⟩
    simp only [HistOps.traced, HistOps.concrete, e]; rfl

theorem number_perm {a b : List (Nat × Nat)} (p : a.Perm b) (P : Nat → Prop) [DecidablePred P] : number a P = number b P := by
  unfold number
  exact ((p.filter _).map _).sum_eq

theorem numberAll_perm {a b : List (Nat × Nat)} (p : a.Perm b) : numberAll a = numberAll b := by
  unfold numberAll
  exact (p.map _).sum_eq

theorem Contains.perm {h : Hist T} {a b : List (Nat × Nat)} (p : a.Perm b) (H : Contains h a) : Contains h b where
  covered q hq := H.covered q (p.mem_iff.mpr hq)
  count w hw := by rw [H.count w hw, number_perm p]
  len := by rw [H.len, numberAll_perm p]

theorem Fits.perm {h : Hist T} {a b : List (Nat × Nat)} (p : a.Perm b) (f : Fits h a) : Fits h b :=
  ⟨fun w hw => by rw [← number_perm p]; exact f.1 w hw, by rw [← numberAll_perm p]; exact f.2⟩

/-- the writes of an execution are recordings of at least one sample -/
def RecordingRun (ls : List (Label (Write T))) : Prop := ∀ w ∈ writesOf ls, w.Recording

/-- C90 (1): let a `SyncHistogram` made from a histogram that holds the samples `l0` be used by any number of threads, that
record through any number of recorders in any interleaving with any refreshes. If all recorders are dropped when a refresh
begins and no new one is made, then when it has returned the histogram holds exactly the samples `l0` and those recorded
by all threads, as long as no counter overflows. -/
theorem C90_holds {h : Hist T} (R : Reachable fp T h) {l0 : List (Nat × Nat)} (H : Contains h l0)
    {ls1 ls2 : List (Label (Write T))} {t : Bool} {s1 s2 : Sys (Hist T)} (hp : PlainRun fp h (ls1 ++ .start t :: ls2))
    (hr : RecordingRun (ls1 ++ .start t :: ls2))
    (e1 : exec (HistOps.concrete fp T) ls1 (Sys.init h) = some (.ok s1)) (hgone : ∀ r ∈ s1.recs, r.pc = .gone)
    (e2 : exec (HistOps.concrete fp T) (.start t :: ls2) s1 = some (.ok s2)) (hnew : Label.recorder ∉ ls2)
    (hout : s2.reader = .out)
    (hfit : Fits h (l0 ++ (writesOf (ls1 ++ ls2)).flatMap (Write.samples h))) :
    Reachable fp T s2.merged ∧ Contains s2.merged (l0 ++ (writesOf (ls1 ++ ls2)).flatMap (Write.samples h)) := by
  have W := R.wf
  obtain ⟨y, ey, eo⟩ := lift_exec (exec_trans e1 e2)
  cases y with
  | error p => cases eo
  | ok g2 =>
    cases eo
    obtain ⟨g1, f1, f2⟩ := exec_append ey
    have hg1 : g1.erase = s1 := by
      have := erase_exec (o := HistOps.concrete fp T) (ls := ls1) (s := Sys.init (h, []))
      rw [show (Sys.init (h, ([] : List (Write T)))).erase = Sys.init h from rfl, e1, f1] at this
      cases this; rfl
    have perm := C47_final h ls1 ls2 t g1 g2 f1 (fun r hr => hgone r.erase (by
      rw [← hg1]; exact List.mem_map.mpr ⟨r, hr, rfl⟩)) f2 hnew hout
    have := fine_exec (sums_fine R (l0 := l0) (fun p hp => H.le W hp) fun j => h.counts.getD j 0) (s := Sys.init (h, []))
      ⟨⟨holds_init W, R, by simp [Sys.init, samplesOf], fun _ => by simpa [Sys.init, samplesOf] using H⟩,
        by simp [Sys.init], by simp [Sys.init]⟩ rfl (run_labels ⟨fun w hw => ⟨hp.1 w hw, hr w hw⟩, hp.2⟩)
    rw [ey] at this
    rcases this with h1 | ⟨s', h1, h2⟩
    · cases h1
    · cases h1
      have pp : (l0 ++ samplesOf h g2.merged.2).Perm (l0 ++ (writesOf (ls1 ++ ls2)).flatMap (Write.samples h)) :=
        (perm.flatMap_right _).append_left l0
      exact ⟨h2.1.2.reach, Contains.perm pp (h2.1.2.held (Fits.perm pp.symm hfit))⟩

theorem Fits.few {h : Hist T} {l : List (Nat × Nat)} (h1 : numberAll l ≤ T.max) : Fits h l :=
  ⟨fun _ _ => le_trans (number_le_all l _) h1, le_trans h1 (T_max_le T)⟩

/-- two recorders, two refreshes, three samples -/
def totalDemo : List (Label (Write .u8)) := syncDemo ++ syncDemoEnd ++ [.drop 1, .dropSend 1]

/-- the refresh that finds all recorders dropped -/
def totalDemoEnd : List (Label (Write .u8)) := [.drain, .drainEnd, .count, .bump, .waitEnd, .finalEnd]

theorem totalDemo_plain : PlainRun Fp.ideal demo (totalDemo ++ .start false :: totalDemoEnd) := by
  refine ⟨?_, ?_⟩
  · intro w hw
    simp [totalDemo, totalDemoEnd, syncDemo, syncDemoEnd, writesOf] at hw
    rcases hw with rfl | rfl | rfl <;> exact ⟨by decide, by decide, Or.inr (by decide)⟩
  · intro i; simp [totalDemo, totalDemoEnd, syncDemo, syncDemoEnd]

theorem totalDemo_recording : RecordingRun (totalDemo ++ .start false :: totalDemoEnd) := by
  intro w hw
  simp [totalDemo, totalDemoEnd, syncDemo, syncDemoEnd, writesOf] at hw
  rcases hw with rfl | rfl | rfl <;> exact Nat.succ_ne_zero _

example : Reachable Fp.ideal .u8 demo ∧ Contains demo [] ∧ PlainRun Fp.ideal demo (totalDemo ++ .start false :: totalDemoEnd) ∧
    RecordingRun (totalDemo ++ .start false :: totalDemoEnd) ∧ Label.recorder ∉ totalDemoEnd ∧
    (∃ s1 s2, exec (HistOps.concrete Fp.ideal .u8) totalDemo (Sys.init demo) = some (.ok s1) ∧
      exec (HistOps.concrete Fp.ideal .u8) (.start false :: totalDemoEnd) s1 = some (.ok s2) ∧
      ((∀ r ∈ s1.recs, r.pc = .gone) ∧ s2.reader = .out ∧ s2.merged.len = 4)) ∧
    (writesOf (totalDemo ++ totalDemoEnd)).flatMap (Write.samples demo) = [(5, 1), (3, 2), (7, 1)] ∧
    Fits demo ([] ++ (writesOf (totalDemo ++ totalDemoEnd)).flatMap (Write.samples demo)) :=
  ⟨demo_reachable, C71_empty demo_reachable rfl, totalDemo_plain, totalDemo_recording, by simp [totalDemoEnd],
    execThen2 (by decide +kernel), by decide +kernel, Fits.few (by decide +kernel)⟩

/-- C90 (3): so, for instance, up to 2^53 samples, `value_at_quantile` then answers for the samples of all threads together:
a value equivalent to the one of the rank asked for. -/
theorem C90_quantile {h : Hist T} (R : Reachable fp T h) {l0 : List (Nat × Nat)} (H : Contains h l0)
    {ls1 ls2 : List (Label (Write T))} {t : Bool} {s1 s2 : Sys (Hist T)} (hp : PlainRun fp h (ls1 ++ .start t :: ls2))
    (hr : RecordingRun (ls1 ++ .start t :: ls2))
    (e1 : exec (HistOps.concrete fp T) ls1 (Sys.init h) = some (.ok s1)) (hgone : ∀ r ∈ s1.recs, r.pc = .gone)
    (e2 : exec (HistOps.concrete fp T) (.start t :: ls2) s1 = some (.ok s2)) (hnew : Label.recorder ∉ ls2)
    (hout : s2.reader = .out) {l : List (Nat × Nat)} (hl : l = l0 ++ (writesOf (ls1 ++ ls2)).flatMap (Write.samples h))
    (hfit : Fits h l) (h0 : 0 < numberAll l) (hn : numberAll l ≤ 2 ^ 53) (q : F64) {y : Nat}
    (hy : KthSmallest l (specRank (numberAll l) q) y) :
    ∃ v, s2.merged.valueAtQuantile q = .ok v ∧ Equiv s2.merged v y ∧ Precise fp s2.merged v y ∧
      (q = .fin 0 → v ≤ y) ∧ (q ≠ .fin 0 → y ≤ v ∨ y = U64MAX ∧ v = U64MAX - 1) := by
  subst hl
  obtain ⟨R2, H2⟩ := C90_holds R H hp hr e1 hgone e2 hnew hout hfit
  exact C72_quantile R2 H2 h0 hn q hy

example : (∃ s1 s2, exec (HistOps.concrete Fp.ideal .u8) totalDemo (Sys.init demo) = some (.ok s1) ∧
      exec (HistOps.concrete Fp.ideal .u8) (.start false :: totalDemoEnd) s1 = some (.ok s2) ∧
      s2.merged.valueAtQuantile (.fin (1 / 2)) = .ok 3) ∧
    specRank (numberAll [(5, 1), (3, 2), (7, 1)]) (.fin (1 / 2)) = 2 ∧ KthSmallest [(5, 1), (3, 2), (7, 1)] 2 3 :=
  ⟨execThen2 (by decide +kernel), by decide +kernel, by unfold KthSmallest; decide⟩

/-! ## With outdated loads, an active owner and resets -/

/-- the samples the `SyncHistogram` started with, unless taken out by a reset -/
def startOf (l0 : List (Nat × Nat)) (inside : List (Option (Write T))) : List (Nat × Nat) :=
  if inside.any Option.isNone then l0 else []

theorem startOf_le {l0 : List (Nat × Nat)} (hl0 : ∀ p ∈ l0, p.1 ≤ U64MAX) (inside : List (Option (Write T))) :
    ∀ p ∈ startOf l0 inside, p.1 ≤ U64MAX := by
  intro p hp
  unfold startOf at hp
  split at hp
  · exact hl0 p hp
  · cases hp

/-- the merged histogram is as its list says -/
def MergedSums (fp : Fp) (h0 : Hist T) (l0 : List (Nat × Nat)) (x : Logged (Hist T) (Write T)) : Prop :=
  MergedOk fp h0 x ∧ Sums fp h0 (startOf l0 x.inside) (x.hist, x.inside.reduceOption)

/-- a local histogram is as its list says -/
def LocalSums (fp : Fp) (h0 : Hist T) (x : Logged (Hist T) (Write T)) : Prop :=
  LocalOk fp h0 x ∧ Sums fp h0 [] (x.hist, x.inside.reduceOption)

theorem logged_sums {h0 : Hist T} (R : Reachable fp T h0) {l0 : List (Nat × Nat)} (hl0 : ∀ p ∈ l0, p.1 ≤ U64MAX) :
    XFine (OwnerOps.concrete fp T).logged (fun w => w.Plain fp h0 ∧ w.Recording) (MergedSums fp h0 l0)
      (LocalSums fp h0) where
  freshM x hx := by
    obtain ⟨y, e, L⟩ := fresh_fine R.wf hx.1
    have S := sums_fresh (h0 := h0) hx.2.reach e
    obtain ⟨e1, e2⟩ := traced_fresh_ok e
    rw [show y = (y.1, []) from Prod.ext rfl e2] at L S
    refine ⟨{ hist := y.1, inside := [], taken := [] }, ?_, ⟨L, by simp⟩, S⟩
    simp only [OwnerOps.logged]
    rw [show (OwnerOps.concrete fp T).fresh x.hist = .ok y.1 from e1]; rfl
  freshL x hx := by
    obtain ⟨y, e, L⟩ := fresh_fine R.wf hx.1.1.1
    have S := sums_fresh (h0 := h0) hx.2.reach e
    obtain ⟨e1, e2⟩ := traced_fresh_ok e
    rw [show y = (y.1, []) from Prod.ext rfl e2] at L S
    refine ⟨{ hist := y.1, inside := [], taken := [] }, ?_, ⟨L, by simp⟩, S⟩
    simp only [OwnerOps.logged]
    rw [show (OwnerOps.concrete fp T).fresh x.hist = .ok y.1 from e1]; rfl
  add m x hm hx := by
    obtain ⟨y, e, L⟩ := add_fine R.wf _ _ _ hm.1 hx.1.1
    have S := sums_add R.wf (startOf_le hl0 m.inside) hm.1 hm.2 hx.1.1 hx.2 e
    obtain ⟨e1, e2⟩ := traced_add_ok e
    rw [show y = (y.1, m.inside.reduceOption ++ x.inside.reduceOption) from Prod.ext rfl e2,
      ← List.reduceOption_append] at L S
    have hb : baseOf h0 (m.inside ++ x.inside) = baseOf h0 m.inside := by
      funext j; unfold baseOf
      rw [List.any_append, hx.1.2, Bool.or_false]
    have hs : startOf l0 (m.inside ++ x.inside) = startOf l0 m.inside := by
      unfold startOf
      rw [List.any_append, hx.1.2, Bool.or_false]
    refine ⟨{ hist := y.1, inside := m.inside ++ x.inside, taken := m.taken ++ x.taken }, ?_, ?_, ?_⟩
    · simp only [OwnerOps.logged]
      rw [show (OwnerOps.concrete fp T).add m.hist x.hist = .ok y.1 from e1]; rfl
    · unfold MergedOk
      dsimp only
      rw [hb]; exact L
    · dsimp only
      rw [hs]; exact S
  write w x hw hx := by
    obtain ⟨g, e, K, S⟩ := sums_write (b := true) R.wf (by simp) hw ⟨hx.1.1.1, fun _ => hx.1.1.2⟩ hx.2
    have hr : x.inside.reduceOption ++ [w] = (x.inside ++ [some w]).reduceOption := by rw [List.reduceOption_append]; rfl
    dsimp only at K S e
    rw [hr] at K S
    refine ⟨{ x with hist := g, inside := x.inside ++ [some w] }, ?_, ⟨⟨K.1, K.2 rfl⟩, ?_⟩, S⟩
    · simp only [OwnerOps.logged]
      rw [show (OwnerOps.concrete fp T).write w x.hist = .ok g from e]; rfl
    · dsimp only
      rw [List.any_append, hx.1.2]; rfl
  own w x hw hx := by
    obtain ⟨g, e, K, S⟩ := sums_write (b := false) R.wf (startOf_le hl0 x.inside) hw ⟨hx.1, fun h => by cases h⟩ hx.2
    have hr : x.inside.reduceOption ++ [w] = (x.inside ++ [some w]).reduceOption := by rw [List.reduceOption_append]; rfl
    dsimp only at K S e
    rw [hr] at K S
    have hb : baseOf h0 (x.inside ++ [some w]) = baseOf h0 x.inside := by
      funext j; unfold baseOf
      rw [show (x.inside ++ [some w]).any Option.isNone = x.inside.any Option.isNone by
        rw [List.any_append]; exact Bool.or_false _]
    have hs : startOf l0 (x.inside ++ [some w]) = startOf l0 x.inside := by
      unfold startOf
      rw [show (x.inside ++ [some w]).any Option.isNone = x.inside.any Option.isNone by
        rw [List.any_append]; exact Bool.or_false _]
    refine ⟨{ x with hist := g, inside := x.inside ++ [some w] }, ?_, ?_, ?_⟩
    · simp only [OwnerOps.logged]
      rw [show (OwnerOps.concrete fp T).write w x.hist = .ok g from e]; rfl
    · unfold MergedOk
      dsimp only
      rw [hb]; exact K.1
    · dsimp only
      rw [hs]; exact S
  reset x hx := by
    refine ⟨{ hist := x.hist.reset, inside := [], taken := x.taken ++ x.inside }, rfl, ?_, ?_⟩
    · exact holds_reset hx.1
    · have Rr : Reachable fp T x.hist.reset := .reset hx.2.reach
      exact ⟨Rr, by simp [samplesOf], fun _ => C71_empty Rr rfl⟩

/-- C90 (2): and at any moment of an execution in which recorders may see outdated phases and the owner records into the
histogram and resets it between refreshes: the histogram holds exactly the samples of certain of the writes, and what it
held at the start if it has not been reset; these writes, with those taken out by resets, in the channel and in the
recorders, are all the writes made, each once. -/
theorem C90_interval {h : Hist T} (R : Reachable fp T h) {l0 : List (Nat × Nat)} (H : Contains h l0)
    {ls : List (XLabel (Write T))} {x : XSys (Hist T)} (hc : XLabel.close ∉ ls) (hp : PlainX fp h ls)
    (hr : ∀ w ∈ xwrites ls, w.Recording) (e : xexec (OwnerOps.concrete fp T) ls (XSys.init h) = some (.ok x)) :
    Reachable fp T x.sys.merged ∧
    ∃ inside elsewhere : List (Option (Write T)), (inside ++ elsewhere).Perm (none :: (xwrites ls).map some) ∧
      (XLabel.reset ∉ ls → none ∈ inside) ∧
      let l := (if inside.any Option.isNone then l0 else []) ++ inside.reduceOption.flatMap (Write.samples h)
      (Fits h l → Contains x.sys.merged l) := by
  have W := R.wf
  obtain ⟨z, ez, eo⟩ := lift_xexec e
  cases z with
  | error p => cases eo
  | ok g =>
    cases eo
    have perm := C65_exactly_once h ls g hc ez
    have := xfine_exec (logged_sums R (l0 := l0) fun p hp => H.le W hp) (x := XSys.start h)
      ⟨⟨⟨mergedOk_init W, R, by simp [XSys.start, XSys.init, Sys.init, samplesOf, List.reduceOption],
          fun _ => by simpa [XSys.start, XSys.init, Sys.init, samplesOf, List.reduceOption, startOf] using H⟩,
        by simp [XSys.start, XSys.init, Sys.init], by simp [XSys.start, XSys.init, Sys.init]⟩, rfl⟩
      (xrun_labels ⟨fun w hw => ⟨hp.1 w hw, hr w hw⟩, hp.2⟩)
    rcases this with h1 | ⟨x', h1, A, -⟩
    · rw [ez] at h1; cases h1
    · rw [ez] at h1; cases h1
      refine ⟨A.1.2.reach, g.sys.merged.inside, g.sys.merged.taken ++ (g.inChan ++ g.inLocal Pc.live), ?_,
        start_inside ez, A.1.2.held⟩
      simpa only [List.append_assoc] using perm

theorem extDemo_recording : ∀ w ∈ xwrites (extDemo ++ .now (.start false) :: extDemoEnd), w.Recording := by
  intro w hw
  simp [extDemo, extDemoEnd, xwrites] at hw
  rcases hw with rfl | rfl | rfl | rfl <;> exact Nat.succ_ne_zero _

/-- of the five writes, the first three have been taken out by the reset, and the fourth (17) is out of reach -/
example : PlainX Fp.ideal demo (extDemo ++ .now (.start false) :: extDemoEnd) ∧
    XLabel.close ∉ extDemo ++ .now (.start false) :: extDemoEnd ∧
    (∃ x, xexec (OwnerOps.concrete Fp.ideal .u8) (extDemo ++ .now (.start false) :: extDemoEnd) (XSys.init demo) =
        some (.ok x) ∧ (x.sys.merged.len = 1 ∧ x.sys.merged.countAt 9 = .ok 1)) := by
  refine ⟨⟨?_, ?_⟩, by simp [extDemo, extDemoEnd], xexecThen (by decide +kernel)⟩
  · intro w hw
    simp [extDemo, extDemoEnd, xwrites] at hw
    rcases hw with rfl | rfl | rfl | rfl <;> exact ⟨by decide, by decide, Or.inr (by decide)⟩
  · intro i; simp [extDemo, extDemoEnd]

end Hdr.Sync
