import Verif.Props.KeepExact
import Verif.Props.SyncTotal

/-!
# C120: recording through many threads cannot be told apart from recording in one
-/

namespace Hdr.Sync

variable {T : CounterTy} {fp : Fp}

theorem samples_below {h0 : Hist T} (W : WF fp h0) (ha : h0.autoResize = false) {w : Write T} (hw : w.Plain fp h0)
    (hr : w.Recording) : ∀ p ∈ w.samples h0, h0.lidx p.1 < h0.lidx U64MAX := by
  intro p hp
  cases w with
  | recordN v c =>
    obtain ⟨hv, -, ht⟩ := hw
    have ht := top_lt W hv (ht.resolve_left (by rw [ha]; simp))
    simp only [Write.samples] at hp
    split at hp
    · simp at hp; subst hp; exact ht
    · cases hp
  | recordNCorrect v c i =>
    obtain ⟨hv, -, ht⟩ := hw
    have ht := top_lt W hv (ht.resolve_left (by rw [ha]; simp))
    simp only [Write.samples] at hp
    split at hp
    · exact correct_lt ht p hp
    · cases hp
  | saturatingRecordN v c =>
    obtain ⟨hv, -, ht⟩ := hw
    rw [if_neg (by rw [ha]; simp)] at ht
    have ht := top_lt W hv ht
    simp only [Write.samples, List.mem_singleton] at hp
    subst hp
    dsimp only
    split
    · exact ht
    · rename_i hcov
      have h1 := W.high_cov
      rw [W.covers_iff] at hcov
      omega
  | add | addCorrect | subtract => exact hr.elim

/-- a local histogram is a blank one with the samples of its writes recorded into it -/
private structure Fed (fp : Fp) (h0 : Hist T) (x : Hist T × List (Write T)) : Prop where
  blank : ∃ g, Reachable fp T g ∧ Blank g ∧ SameConfig h0 g ∧ recordSeq (samplesOf h0 x.2) g = .ok (x.1, .ok ())
  below : ∀ p ∈ samplesOf h0 x.2, h0.lidx p.1 < h0.lidx U64MAX

/-- the merged histogram reports its samples exactly, unless they are too many for a counter -/
private structure Whole (fp : Fp) (h0 : Hist T) (x : Hist T × List (Write T)) : Prop where
  made : Fits h0 (samplesOf h0 x.2) → Made fp h0 x.1 (samplesOf h0 x.2)
  below : ∀ p ∈ samplesOf h0 x.2, h0.lidx p.1 < h0.lidx U64MAX

private theorem Fed.made {h0 : Hist T} (ha : h0.autoResize = false) (hu : h0.unitMag = 0)
    {x : Hist T × List (Write T)} (F : Fed fp h0 x) (L : Local fp h0 x) (S : Sums fp h0 [] x)
    (f : Fits h0 (samplesOf h0 x.2)) : Made fp h0 x.1 (samplesOf h0 x.2) := by
  obtain ⟨g, Rg, B, c, e⟩ := F.blank
  have K : Contains x.1 (samplesOf h0 x.2) := by simpa using S.held (by simpa using f)
  have Wx := S.reach.wf
  refine ⟨S.reach, K, ?_, L.1.cfg, L.1.high ha⟩
  refine (recordSeq_exactStats_of_total Rg B (fun p hp => ⟨(S.valid p hp).1, (S.valid p hp).2.1⟩)
    (fun p hp => Nat.pos_of_ne_zero (S.valid p hp).2.2) e Wx.contents (K.exact Wx) ?_ (.inl (c.um.trans hu))).1
  intro p hp q
  rw [Rg.wf.equiv_iff (S.valid p hp).1 le_rfl, c.lidx, c.lidx] at q
  exact absurd q (F.below p hp).ne

private theorem fed_fresh {h0 : Hist T} {x y : Hist T × List (Write T)} (Rx : Reachable fp T x.1) (c : SameConfig h0 x.1)
    (e : (HistOps.concrete fp T).traced.fresh x = .ok y) : Fed fp h0 y := by
  obtain ⟨g, eg, Wg, ht, hm, hn, a1, a2, a3, a4, a5, a6, -⟩ := Rx.wf.newFrom_eq (T := T)
  obtain ⟨gx, egx, F⟩ := C02_fresh_from (T := T) Rx
  rw [eg] at egx
  cases egx
  simp only [HistOps.traced, HistOps.concrete, eg] at e
  cases e
  have B : Blank g := ⟨F.len, F.minNz, 0, by omega, F.max, (Wg.equiv_iff (by omega) (by omega)).mpr rfl⟩
  exact ⟨⟨g, .newFrom Rx eg, B, ⟨a1.trans c.auto, a2.trans c.low, a4.trans c.sig, a5.trans c.um, a6.trans c.mag⟩, rfl⟩,
    by simp [samplesOf]⟩

private theorem fed_write {h0 : Hist T} (W : WF fp h0) (ha : h0.autoResize = false) {w : Write T} {x : Hist T × List (Write T)}
    {g : Hist T} (hw : w.Plain fp h0 ∧ w.Recording) (F : Fed fp h0 x)
    (es : recordSeq (w.samples h0) x.1 = .ok (g, .ok ())) : Fed fp h0 (g, x.2 ++ [w]) := by
  obtain ⟨⟨g0, R, B, c, e⟩, hb⟩ := F
  have hs : samplesOf h0 (x.2 ++ [w]) = samplesOf h0 x.2 ++ w.samples h0 := by
    rw [samplesOf_append]; simp [samplesOf]
  refine ⟨⟨g0, R, B, c, ?_⟩, ?_⟩
  · dsimp only
    rw [hs, recordSeq_append, e]
    exact es
  · dsimp only
    rw [hs]
    intro p hp
    rcases List.mem_append.mp hp with hp | hp
    · exact hb p hp
    · exact samples_below W ha hw.1 hw.2 p hp

private theorem whole_add {h0 : Hist T} (W : WF fp h0) (ha : h0.autoResize = false) (hu : h0.unitMag = 0)
    {m x y : Hist T × List (Write T)} (Sm : Sums fp h0 [] m) (Q : Whole fp h0 m) (L : Local fp h0 x) (Sx : Sums fp h0 [] x)
    (F : Fed fp h0 x) (e : (HistOps.concrete fp T).traced.add m x = .ok y) : Whole fp h0 y := by
  simp only [HistOps.traced, HistOps.concrete] at e
  rw [M.bind_eq_ok] at e
  obtain ⟨g, eg, e⟩ := e
  cases e
  unfold addExpect at eg
  rw [M.bind_eq_ok] at eg
  obtain ⟨⟨z, r⟩, ez, eg⟩ := eg
  cases r with
  | error q => cases eg
  | ok u =>
    cases eg
    refine ⟨?_, ?_⟩
    · dsimp only
      rw [samplesOf_append]
      intro f
      have hle : ∀ p ∈ samplesOf h0 m.2 ++ samplesOf h0 x.2, p.1 ≤ U64MAX := fun p hp =>
        (List.mem_append.mp hp).elim (fun hp => (Sm.valid p hp).1) fun hp => (Sx.valid p hp).1
      obtain ⟨z', e', D⟩ := (Q.made f.left).add W (F.made ha hu L Sx f.right) hle
        (fun p hp => Nat.pos_of_ne_zero (Sx.valid p hp).2.2) f.1 f.2 (by
          have h1 := L.2 ha
          rw [← L.1.cfg.lidx, ← L.1.cfg.lidx] at h1
          have h2 : x.1.lidx x.1.lmax = x.1.lidx x.1.maxValue := by
            unfold Hist.lmax
            split
            · rename_i h; rw [h]
            · exact lidx_lhi L.1.wf.maxle
          omega)
      rw [ez] at e'
      cases e'
      exact D
    · dsimp only
      rw [samplesOf_append]
      intro p hp
      exact (List.mem_append.mp hp).elim (Q.below p) (F.below p)

private theorem whole_fine {h0 : Hist T} (R : Reachable fp T h0) (ha : h0.autoResize = false) (hu : h0.unitMag = 0)
    (base : Nat → Nat) :
    Fine (HistOps.concrete fp T).traced (fun w => w.Plain fp h0 ∧ w.Recording)
      (fun x => (Holds fp h0 base x ∧ Sums fp h0 [] x) ∧ Whole fp h0 x)
      (fun x => (Local fp h0 x ∧ Sums fp h0 [] x) ∧ Fed fp h0 x) where
  freshM x hx := by
    obtain ⟨y, e, L⟩ := fresh_fine R.wf hx.1.1
    exact ⟨y, e, ⟨L, sums_fresh hx.1.2.reach e⟩, fed_fresh hx.1.2.reach hx.1.1.cfg e⟩
  freshL x hx := by
    obtain ⟨y, e, L⟩ := fresh_fine R.wf hx.1.1.1
    exact ⟨y, e, ⟨L, sums_fresh hx.1.2.reach e⟩, fed_fresh hx.1.2.reach hx.1.1.1.cfg e⟩
  add m x hm hx := by
    obtain ⟨y, e, H⟩ := add_fine R.wf base m x hm.1.1 hx.1.1
    exact ⟨y, e, ⟨H, sums_add R.wf (by simp) hm.1.1 hm.1.2 hx.1.1 hx.1.2 e⟩,
      whole_add R.wf ha hu hm.1.2 hm.2 hx.1.1 hx.1.2 hx.2 e⟩
  write w x hw hx := by
    have K0 : Keeps fp h0 true (fun _ => 0) x := ⟨hx.1.1.1, fun _ => hx.1.1.2⟩
    obtain ⟨g, e, K, S⟩ := sums_write (b := true) R.wf (by simp) hw K0 hx.1.2
    obtain ⟨g', e', es, -⟩ := write_recorded R.wf w x hw.1 hw.2 K0
    rw [e] at e'
    cases e'
    refine ⟨(g, x.2 ++ [w]), ?_, ⟨⟨K.1, K.2 rfl⟩, S⟩, fed_write R.wf ha hw hx.2 es⟩
    simp only [HistOps.traced, HistOps.concrete, e]; rfl

/-- the merged histogram against one recorded by a single thread -/
private theorem whole_alike {h : Hist T} (R : Reachable fp T h) (B : Blank h) (ha : h.autoResize = false) (hu : h.unitMag = 0)
    {base : Nat → Nat} {x : Hist T × List (Write T)} (H : Holds fp h base x) (S : Sums fp h [] x) (Q : Whole fp h x)
    {l : List (Nat × Nat)} (pp : (samplesOf h x.2).Perm l) (hfit : Fits h l) :
    ∃ g, recordSeq l h = .ok (g, .ok ()) ∧ x.1.eq g = .ok true ∧ Alike fp ⟨T, x.1⟩ ⟨T, g⟩ := by
  have W := R.wf
  have A := Q.made (Fits.perm pp.symm hfit)
  have A' : Made fp h x.1 l := ⟨A.R, Contains.perm pp A.K, A.X, A.c, A.t⟩
  have hm : ∀ p ∈ l, p ∈ samplesOf h x.2 := fun p hp => pp.mem_iff.mpr hp
  obtain ⟨g, eg, Rg, Kg, Xg, cg, tg, -⟩ := record_blank R B (k := l) (fun p hp => ⟨(W.covers_iff _).mpr (by
      have h3 := (A.R.wf.covers_iff _).mp (A'.K.covered p hp)
      rwa [A.c.lidx, H.len_eq W ha] at h3), Nat.pos_of_ne_zero (S.valid p (hm p hp)).2.2, (S.valid p (hm p hp)).2.1⟩)
    hfit.1 hfit.2 (fun p hp q => by
      rw [W.equiv_iff (S.valid p (hm p hp)).1 le_rfl] at q
      exact absurd q (Q.below p (hm p hp)).ne) (.inl hu)
  exact ⟨g, eg, A'.alike ⟨Rg, Kg, Xg, cg, tg⟩⟩

/-- C120 (1): let a `SyncHistogram` made from a blank histogram `h` of unit 1 that does not resize be used by any number of
threads, as in C90, with no recording in the class of `u64::MAX` (`PlainRun`). If all recorders are dropped when a refresh
begins and no new one is made, then when it has returned the histogram cannot be told apart, by any program, from one into
which a single thread recorded the samples of all threads one after the other, in any order, as long as no counter
overflows. -/
theorem C120_alike {h : Hist T} (R : Reachable fp T h) (B : Blank h) (ha : h.isAutoResize = false)
    (hunit : h.highestEquivalent 0 = .ok 0)
    {ls1 ls2 : List (Label (Write T))} {t : Bool} {s1 s2 : Sys (Hist T)} (hp : PlainRun fp h (ls1 ++ .start t :: ls2))
    (hr : RecordingRun (ls1 ++ .start t :: ls2))
    (e1 : exec (HistOps.concrete fp T) ls1 (Sys.init h) = some (.ok s1)) (hgone : ∀ r ∈ s1.recs, r.pc = .gone)
    (e2 : exec (HistOps.concrete fp T) (.start t :: ls2) s1 = some (.ok s2)) (hnew : Label.recorder ∉ ls2)
    (hout : s2.reader = .out) {l : List (Nat × Nat)}
    (hl : l.Perm ((writesOf (ls1 ++ ls2)).flatMap (Write.samples h))) (hfit : Fits h l) :
    ∃ g, recordSeq l h = .ok (g, .ok ()) ∧ s2.merged.eq g = .ok true ∧ Alike fp ⟨T, s2.merged⟩ ⟨T, g⟩ := by
  have W := R.wf
  have hu := W.unit_one hunit
  have ha : h.autoResize = false := ha
  obtain ⟨y, ey, eo⟩ := lift_exec (exec_trans e1 e2)
  cases y with
  | error p => cases eo
  | ok g2 =>
    cases eo
    obtain ⟨g1, f1, f2⟩ := exec_append ey
    have hg1 : g1.erase = s1 := by
      have := erase_exec (o := HistOps.concrete fp T) (ls := ls1) (s := Sys.init (h, []))
      rw [show (Sys.init (h, ([] : List (Write T)))).erase = Sys.init h from rfl, e1, f1] at this
      cases this; rfl
    have perm := C47_final h ls1 ls2 t g1 g2 f1 (fun r hr => hgone r.erase (by
      rw [← hg1]; exact List.mem_map.mpr ⟨r, hr, rfl⟩)) f2 hnew hout
    have K0 : Contains h [] := C71_empty R B.len
    have M0 : Made fp h h [] := by
      obtain ⟨a, e, Ra, Ka, Xa, ca, ta, -⟩ := record_blank R B (k := []) (by simp) (by simp [number]) (by simp [numberAll])
        (by simp) (.inl hu)
      cases e
      exact ⟨Ra, Ka, Xa, ca, ta⟩
    have := fine_exec (whole_fine R ha hu fun j => h.counts.getD j 0) (s := Sys.init (h, []))
      ⟨⟨⟨holds_init W, R, by simp [Sys.init, samplesOf], fun _ => by simpa [Sys.init, samplesOf] using K0⟩,
          fun _ => by simpa [Sys.init, samplesOf] using M0, by simp [Sys.init, samplesOf]⟩,
        by simp [Sys.init], by simp [Sys.init]⟩ rfl (run_labels ⟨fun w hw => ⟨hp.1 w hw, hr w hw⟩, hp.2⟩)
    rw [ey] at this
    rcases this with h1 | ⟨s', h1, h2⟩
    · cases h1
    · cases h1
      obtain ⟨⟨⟨H, S⟩, M⟩, -⟩ := h2
      exact whole_alike R B ha hu H S M ((perm.flatMap_right _).trans hl.symm) hfit

/-- two recorders, two refreshes, three samples; recorded in another order by one thread -/
example : ∃ s1 s2, exec (HistOps.concrete Fp.ideal .u8) totalDemo (Sys.init demo) = some (.ok s1) ∧
    exec (HistOps.concrete Fp.ideal .u8) (.start false :: totalDemoEnd) s1 = some (.ok s2) ∧
    ∃ g, recordSeq [(7, 1), (3, 2), (5, 1)] demo = .ok (g, .ok ()) ∧ s2.merged.eq g = .ok true ∧
      Alike Fp.ideal ⟨.u8, s2.merged⟩ ⟨.u8, g⟩ := by
  obtain ⟨s1, s2, e1, e2, hg, ho⟩ : ∃ s1 s2, exec (HistOps.concrete Fp.ideal .u8) totalDemo (Sys.init demo) = some (.ok s1) ∧
      exec (HistOps.concrete Fp.ideal .u8) (.start false :: totalDemoEnd) s1 = some (.ok s2) ∧
      ((∀ r ∈ s1.recs, r.pc = .gone) ∧ s2.reader = .out) := execThen2 (by decide +kernel)
  exact ⟨s1, s2, e1, e2, C120_alike demo_reachable (Blank.newWithBounds (by decide) demo_eq) rfl (by decide) totalDemo_plain
    totalDemo_recording e1 hg e2 (by simp [totalDemoEnd]) ho (by decide +kernel) (Fits.few (by decide))⟩

/-! ## At any moment, with outdated loads, an active owner and resets -/

private theorem whole_write {h0 : Hist T} (W : WF fp h0) (ha : h0.autoResize = false) (hu : h0.unitMag = 0) {base : Nat → Nat}
    {w : Write T} {x : Hist T × List (Write T)} {g : Hist T} (hw : w.Plain fp h0 ∧ w.Recording) (Q : Whole fp h0 x)
    (H : Holds fp h0 base (g, x.2 ++ [w])) (Sg : Sums fp h0 [] (g, x.2 ++ [w]))
    (es : recordSeq (w.samples h0) x.1 = .ok (g, .ok ())) : Whole fp h0 (g, x.2 ++ [w]) := by
  have hs : samplesOf h0 (x.2 ++ [w]) = samplesOf h0 x.2 ++ w.samples h0 := by
    rw [samplesOf_append]; simp [samplesOf]
  have hv := samples_valid W hw.1 hw.2
  have hb := samples_below W ha hw.1 hw.2
  refine ⟨fun f => ?_, ?_⟩
  · have K : Contains g (samplesOf h0 (x.2 ++ [w])) := by simpa using Sg.held (by simpa using f)
    have f' : Fits h0 (samplesOf h0 x.2) := by
      dsimp only at f
      rw [hs] at f
      exact f.left
    have A := Q.made f'
    have Wx := A.R.wf
    refine ⟨Sg.reach, K, ?_, H.cfg, H.high ha⟩
    refine recordSeq_keeps_exact Wx (A.c.um.trans hu) A.X ?_ (fun p hp => ⟨(hv p hp).1, (hv p hp).2.1⟩)
      (fun p hp => Nat.pos_of_ne_zero (hv p hp).2.2) es (K.exact Sg.reach.wf) ?_
    · intro j hj
      rw [A.K.all Wx] at hj
      obtain ⟨p, hp, rfl⟩ := of_hits_pos hj
      rw [A.c.lidx, A.c.lidx]
      exact Q.below p hp
    · intro p hp
      rw [A.c.lidx, A.c.lidx]
      exact hb p hp
  · dsimp only
    rw [hs]
    intro p hp
    exact (List.mem_append.mp hp).elim (Q.below p) (hb p)

theorem made_blank {h0 a : Hist T} (R : Reachable fp T a) (B : Blank a) (hu : a.unitMag = 0) (c : SameConfig h0 a)
    (t : a.highestTrackable = h0.highestTrackable) : Made fp h0 a [] := by
  obtain ⟨g, e, Rg, Kg, Xg, -⟩ := record_blank R B (k := []) (by simp) (by simp [number]) (by simp [numberAll]) (by simp) (.inl hu)
  cases e
  exact ⟨Rg, Kg, Xg, c, t⟩

private theorem startOf_nil (inside : List (Option (Write T))) : startOf [] inside = [] := by
  unfold startOf; split <;> rfl

private def MergedWhole (fp : Fp) (h0 : Hist T) (x : Logged (Hist T) (Write T)) : Prop :=
  MergedSums fp h0 [] x ∧ Whole fp h0 (x.hist, x.inside.reduceOption) ∧ (none ∈ x.inside → x.taken = [])

private def LocalFed (fp : Fp) (h0 : Hist T) (x : Logged (Hist T) (Write T)) : Prop :=
  LocalSums fp h0 x ∧ Fed fp h0 (x.hist, x.inside.reduceOption) ∧ x.taken = []

private theorem MergedWhole.sums {h0 : Hist T} {x : Logged (Hist T) (Write T)} (H : MergedSums fp h0 [] x) :
    Sums fp h0 [] (x.hist, x.inside.reduceOption) := by
  have := H.2
  rwa [startOf_nil] at this

private theorem logged_fresh {h0 : Hist T} {x y : Logged (Hist T) (Write T)} (R : Reachable fp T x.hist)
    (c : SameConfig h0 x.hist) (e : (OwnerOps.concrete fp T).logged.fresh x = .ok y) :
    Fed fp h0 (y.hist, y.inside.reduceOption) ∧ y.taken = [] := by
  simp only [OwnerOps.logged] at e
  rw [M.bind_eq_ok] at e
  obtain ⟨g, eg, e⟩ := e
  cases e
  refine ⟨fed_fresh (x := (x.hist, [])) R c ?_, rfl⟩
  simp only [HistOps.traced]
  rw [show (HistOps.concrete fp T).fresh x.hist = .ok g from eg]; rfl

private theorem logged_whole {h0 : Hist T} (R : Reachable fp T h0) (ha : h0.autoResize = false) (hu : h0.unitMag = 0) :
    XFine (OwnerOps.concrete fp T).logged (fun w => w.Plain fp h0 ∧ w.Recording) (MergedWhole fp h0) (LocalFed fp h0) where
  freshM x hx := by
    obtain ⟨y, e, L⟩ := (logged_sums R (l0 := []) (by simp)).freshM x hx.1
    exact ⟨y, e, L, logged_fresh hx.1.2.reach hx.1.1.cfg e⟩
  freshL x hx := by
    obtain ⟨y, e, L⟩ := (logged_sums R (l0 := []) (by simp)).freshL x hx.1
    exact ⟨y, e, L, logged_fresh hx.1.2.reach hx.1.1.1.1.cfg e⟩
  add m x hm hx := by
    obtain ⟨y, e, L⟩ := (logged_sums R (l0 := []) (by simp)).add m x hm.1 hx.1
    refine ⟨y, e, L, ?_⟩
    simp only [OwnerOps.logged] at e
    rw [M.bind_eq_ok] at e
    obtain ⟨g, eg, e⟩ := e
    cases e
    refine ⟨?_, fun hn => ?_⟩
    · dsimp only
      rw [List.reduceOption_append]
      refine whole_add R.wf ha hu (MergedWhole.sums hm.1) hm.2.1 hx.1.1.1 hx.1.2 hx.2.1 ?_
      simp only [HistOps.traced]
      rw [show (HistOps.concrete fp T).add m.hist x.hist = .ok g from eg]; rfl
    · dsimp only at hn ⊢
      rw [hx.2.2, List.append_nil]
      refine hm.2.2 ((List.mem_append.mp hn).resolve_right fun hn => ?_)
      have h1 := hx.1.1.2
      rw [List.any_eq_false] at h1
      exact h1 _ hn rfl
  write w x hw hx := by
    obtain ⟨y, e, L⟩ := (logged_sums R (l0 := []) (by simp)).write w x hw hx.1
    refine ⟨y, e, L, ?_⟩
    obtain ⟨g, eg, es, -⟩ := write_recorded (b := true) R.wf w _ hw.1 hw.2 ⟨hx.1.1.1.1, fun _ => hx.1.1.1.2⟩
    simp only [OwnerOps.logged] at e
    rw [show (OwnerOps.concrete fp T).write w x.hist = .ok g from eg] at e
    cases e
    have hr : (x.inside ++ [some w]).reduceOption = x.inside.reduceOption ++ [w] := by rw [List.reduceOption_append]; rfl
    dsimp only
    rw [hr]
    exact ⟨fed_write R.wf ha hw hx.2.1 es, hx.2.2⟩
  own w x hw hx := by
    obtain ⟨y, e, L⟩ := (logged_sums R (l0 := []) (by simp)).own w x hw hx.1
    refine ⟨y, e, L, ?_⟩
    obtain ⟨g, eg, es, -⟩ := write_recorded (b := false) R.wf w _ hw.1 hw.2 ⟨hx.1.1, fun h => by cases h⟩
    simp only [OwnerOps.logged] at e
    rw [show (OwnerOps.concrete fp T).write w x.hist = .ok g from eg] at e
    cases e
    have hr : (x.inside ++ [some w]).reduceOption = x.inside.reduceOption ++ [w] := by rw [List.reduceOption_append]; rfl
    have Sg := MergedWhole.sums L
    have Hg := L.1
    unfold MergedOk at Hg
    dsimp only at Sg Hg ⊢
    rw [hr] at Sg Hg ⊢
    exact ⟨whole_write R.wf ha hu hw hx.2.1 Hg Sg es, fun hn => hx.2.2 (by simpa using hn)⟩
  reset x hx := by
    obtain ⟨y, e, L⟩ := (logged_sums R (l0 := []) (by simp)).reset x hx.1
    refine ⟨y, e, L, ?_⟩
    cases e
    have c := L.1.cfg
    exact ⟨⟨fun _ => made_blank (.reset hx.1.2.reach) (Blank.reset hx.1.2.reach) (c.um.trans hu) c (L.1.high ha),
      by simp [samplesOf]⟩, fun hn => absurd hn (by simp)⟩

private theorem whole_start {h : Hist T} (R : Reachable fp T h) (B : Blank h) (ha : h.autoResize = false) (hu : h.unitMag = 0)
    {ls : List (XLabel (Write T))} {g : XSys (Logged (Hist T) (Write T))} (hp : PlainX fp h ls)
    (hr : ∀ w ∈ xwrites ls, w.Recording)
    (ez : xexec (OwnerOps.concrete fp T).logged ls (XSys.start h) = some (.ok g)) : MergedWhole fp h g.sys.merged := by
  have K0 : Contains h [] := C71_empty R B.len
  have M0 : Made fp h h [] := made_blank R B hu ⟨rfl, rfl, rfl, rfl, rfl⟩ rfl
  have := xfine_exec (logged_whole R ha hu) (x := XSys.start h)
    ⟨⟨⟨⟨mergedOk_init R.wf, R, by simp [XSys.start, XSys.init, Sys.init, samplesOf, List.reduceOption],
          fun _ => by simpa [XSys.start, XSys.init, Sys.init, samplesOf, List.reduceOption, startOf] using K0⟩,
        ⟨fun _ => by simpa [XSys.start, XSys.init, Sys.init, samplesOf, List.reduceOption] using M0,
          by simp [XSys.start, XSys.init, Sys.init, samplesOf, List.reduceOption]⟩, fun _ => rfl⟩,
      by simp [XSys.start, XSys.init, Sys.init], by simp [XSys.start, XSys.init, Sys.init]⟩, rfl⟩
    (xrun_labels ⟨fun w hw => ⟨hp.1 w hw, hr w hw⟩, hp.2⟩)
  rcases this with h1 | ⟨x', h1, A, -⟩
  · rw [ez] at h1; cases h1
  · rw [ez] at h1; cases h1
    exact A.1

private theorem some_writes {a : List (Option (Write T))} {b : List (Write T)} (p : a.Perm (none :: b.map some)) :
    a.reduceOption.Perm b := by
  have p2 := List.Perm.filterMap id p
  have e3 : (none :: b.map some).filterMap id = b := by simp
  rwa [e3] at p2

/-- C120 (2): and at any moment of an execution in which recorders may see outdated phases and the owner records into the
histogram and resets it between refreshes: there are some of the writes made, the others having been taken out by resets
or being still under way, such that the histogram cannot be told apart from one into which a single thread recorded the
samples of these writes in any order, as long as no counter overflows. -/
theorem C120_interval {h : Hist T} (R : Reachable fp T h) (B : Blank h) (ha : h.isAutoResize = false)
    (hunit : h.highestEquivalent 0 = .ok 0) {ls : List (XLabel (Write T))} {x : XSys (Hist T)} (hc : XLabel.close ∉ ls)
    (hp : PlainX fp h ls) (hr : ∀ w ∈ xwrites ls, w.Recording)
    (e : xexec (OwnerOps.concrete fp T) ls (XSys.init h) = some (.ok x)) :
    ∃ inside elsewhere : List (Write T), (inside ++ elsewhere).Perm (xwrites ls) ∧
      ∀ l : List (Nat × Nat), l.Perm (inside.flatMap (Write.samples h)) → Fits h l →
        ∃ g, recordSeq l h = .ok (g, .ok ()) ∧ x.sys.merged.eq g = .ok true ∧ Alike fp ⟨T, x.sys.merged⟩ ⟨T, g⟩ := by
  have W := R.wf
  have hu := W.unit_one hunit
  have ha : h.autoResize = false := ha
  obtain ⟨z, ez, eo⟩ := lift_xexec e
  cases z with
  | error p => cases eo
  | ok g =>
    cases eo
    have perm := C65_exactly_once h ls g hc ez
    have A := whole_start R B ha hu hp hr ez
    refine ⟨g.sys.merged.inside.reduceOption, (g.sys.merged.taken ++ (g.inChan ++ g.inLocal Pc.live)).reduceOption, ?_, ?_⟩
    · rw [← List.reduceOption_append]
      exact some_writes (by simpa only [List.append_assoc] using perm)
    · intro l pp hfit
      exact whole_alike R B ha hu A.1.1 (MergedWhole.sums A.1) A.2.1 pp.symm hfit

/-- C120 (3): if the owner does not reset it and all recorders are dropped when a refresh begins and no new one is made,
then when it has returned these are all the writes made, by the recorders and by the owner. -/
theorem C120_owner {h : Hist T} (R : Reachable fp T h) (B : Blank h) (ha : h.isAutoResize = false)
    (hunit : h.highestEquivalent 0 = .ok 0) {ls1 ls2 : List (XLabel (Write T))} {t : Bool} {x1 x2 : XSys (Hist T)}
    (hc : XLabel.close ∉ ls1 ++ ls2) (hres : XLabel.reset ∉ ls1 ++ ls2) (hp : PlainX fp h (ls1 ++ .now (.start t) :: ls2))
    (hr : ∀ w ∈ xwrites (ls1 ++ .now (.start t) :: ls2), w.Recording)
    (e1 : xexec (OwnerOps.concrete fp T) ls1 (XSys.init h) = some (.ok x1)) (hgone : ∀ r ∈ x1.sys.recs, r.pc = .gone)
    (e2 : xexec (OwnerOps.concrete fp T) (.now (.start t) :: ls2) x1 = some (.ok x2)) (hnew : XLabel.now .recorder ∉ ls2)
    (hout : x2.sys.reader = .out) {l : List (Nat × Nat)}
    (hl : l.Perm ((xwrites (ls1 ++ ls2)).flatMap (Write.samples h))) (hfit : Fits h l) :
    ∃ g, recordSeq l h = .ok (g, .ok ()) ∧ x2.sys.merged.eq g = .ok true ∧ Alike fp ⟨T, x2.sys.merged⟩ ⟨T, g⟩ := by
  have W := R.wf
  have hu := W.unit_one hunit
  have ha : h.autoResize = false := ha
  obtain ⟨z, ez, eo⟩ := lift_xexec (xexec_trans e1 e2)
  cases z with
  | error p => cases eo
  | ok g2 =>
    cases eo
    obtain ⟨g1, f1, f2⟩ := xexec_append ez
    have A := whole_start R B ha hu hp hr ez
    have hg1 : g1.map Logged.hist = x1 := by
      obtain ⟨z1, ez1, eo1⟩ := lift_xexec e1
      rw [f1] at ez1
      cases ez1; cases eo1; rfl
    have perm := C65_intervals h ls1 ls2 t g1 g2 hc f1 (fun r hr =>
      hgone (r.map Logged.hist) (by rw [← hg1]; exact List.mem_map.mpr ⟨r, hr, rfl⟩)) f2 hnew hout
    have hin := start_inside ez (by simpa using hres)
    rw [A.2.2 hin, List.append_nil] at perm
    exact whole_alike R B ha hu A.1.1 (MergedWhole.sums A.1) A.2.1
      (((some_writes perm).flatMap_right _).trans hl.symm) hfit

/-- the example of C90 (2), in which the owner resets -/
example : ∃ x, ∃ inside elsewhere : List (Write .u8), xexec (OwnerOps.concrete Fp.ideal .u8) (extDemo ++ .now (.start false) :: extDemoEnd)
      (XSys.init demo) = some (.ok x) ∧ x.sys.merged.len = 1 ∧
    (inside ++ elsewhere).Perm (xwrites (extDemo ++ .now (.start false) :: extDemoEnd)) ∧
    ∀ l : List (Nat × Nat), l.Perm (inside.flatMap (Write.samples demo)) → Fits demo l →
      ∃ g, recordSeq l demo = .ok (g, .ok ()) ∧ x.sys.merged.eq g = .ok true ∧ Alike Fp.ideal ⟨.u8, x.sys.merged⟩ ⟨.u8, g⟩ := by
  obtain ⟨x, e, hx⟩ : ∃ x, xexec (OwnerOps.concrete Fp.ideal .u8) (extDemo ++ .now (.start false) :: extDemoEnd)
      (XSys.init demo) = some (.ok x) ∧ x.sys.merged.len = 1 := xexecThen (by decide +kernel)
  obtain ⟨i, j, h1, h2⟩ := C120_interval demo_reachable (Blank.newWithBounds (by decide) demo_eq) rfl (by decide)
    (by simp [extDemo, extDemoEnd]) ⟨by
      intro w hw
      simp [extDemo, extDemoEnd, xwrites] at hw
      rcases hw with rfl | rfl | rfl | rfl <;> exact ⟨by decide, by decide, Or.inr (by decide)⟩, by
      intro i; simp [extDemo, extDemoEnd]⟩ extDemo_recording e
  exact ⟨x, i, j, e, hx, h1, h2⟩

/-- one recorder, and the owner, who records between its writes -/
private def ownDemo : List (XLabel (Write .u8)) :=
  [.now .recorder, .now (.write 0 (.recordN 5 1)), .own (.recordN 3 2), .now (.write 0 (.recordN 9 1)), .now (.drop 0),
   .now (.dropSend 0)]

example : ∃ x1 x2, xexec (OwnerOps.concrete Fp.ideal .u8) ownDemo (XSys.init demo) = some (.ok x1) ∧
    xexec (OwnerOps.concrete Fp.ideal .u8) (.now (.start false) :: extDemoEnd) x1 = some (.ok x2) ∧
    ∃ g, recordSeq [(3, 2), (5, 1), (9, 1)] demo = .ok (g, .ok ()) ∧ x2.sys.merged.eq g = .ok true ∧
      Alike Fp.ideal ⟨.u8, x2.sys.merged⟩ ⟨.u8, g⟩ := by
  obtain ⟨x1, x2, e1, e2, hg, ho⟩ := xexecThen2 (o := OwnerOps.concrete Fp.ideal .u8) (l1 := ownDemo)
    (l2 := .now (.start false) :: extDemoEnd) (s0 := XSys.init demo)
    (P := fun x1 x2 => (∀ r ∈ x1.sys.recs, r.pc = .gone) ∧ x2.sys.reader = .out) (by decide +kernel)
  exact ⟨x1, x2, e1, e2, C120_owner demo_reachable (Blank.newWithBounds (by decide) demo_eq) rfl (by decide)
    (by simp [ownDemo, extDemoEnd]) (by simp [ownDemo, extDemoEnd]) ⟨by
      intro w hw
      simp [ownDemo, extDemoEnd, xwrites] at hw
      rcases hw with rfl | rfl | rfl <;> exact ⟨by decide, by decide, Or.inr (by decide)⟩, by
      intro i; simp [ownDemo, extDemoEnd]⟩ (by
      intro w hw
      simp [ownDemo, extDemoEnd, xwrites] at hw
      rcases hw with rfl | rfl | rfl <;> exact Nat.succ_ne_zero _) e1 hg e2 (by simp [extDemoEnd]) ho (by decide +kernel)
    (Fits.few (by decide))⟩

end Hdr.Sync
