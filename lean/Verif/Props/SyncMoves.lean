import Verif.Spec.SyncMoves
import Verif.Props.Sync

/-!
# C47: every change a recorder makes arrives in the merged histogram, whatever is written
-/

namespace Hdr.Sync

variable {T : CounterTy} {fp : Fp}

theorem recordSeq_cfg {h h' : Hist T} (W : WF fp h) {l : List (Nat × Nat)} (hl : ∀ p ∈ l, p.1 ≤ U64MAX ∧ p.2 ≤ T.max)
    {r : Except RecordError Unit} (e : recordSeq l h = .ok (h', r)) : SameConfig h h' := by
  obtain ⟨g, r', e', -, hr⟩ := W.recordSeq_spec l hl
  rw [e] at e'
  cases e'
  cases r with
  | ok u => exact hr.1.cfg
  | error x =>
    obtain ⟨-, -, l1, p, l2, -, hs, -⟩ := hr
    exact hs.cfg

/-- a histogram with the settings of `h0` -/
structure Sound (fp : Fp) (h0 x : Hist T) : Prop where
  reach : Reachable fp T x
  cfg : SameConfig h0 x

theorem Sound.wf {h0 x : Hist T} (G : Sound fp h0 x) : WF fp x := G.reach.wf

theorem Sound.samplesAt {h0 x : Hist T} (G : Sound fp h0 x) {v : Nat} (hv : v ≤ U64MAX) :
    samplesAt x v = x.counts.getD (h0.lidx v) 0 := by
  have W := G.wf
  have hc : HasCount x v (Sync.samplesAt x v) := by
    unfold HasCount Sync.samplesAt
    by_cases h : x.Covers v
    · rw [if_pos h, W.countAt_eq hv]
      exact .inl ⟨h, rfl⟩
    · rw [if_neg h]
      exact .inr ⟨h, rfl⟩
  rw [W.hasCount_iff hv] at hc
  rw [hc, G.cfg.lidx]

theorem Sound.write {h0 x y : Hist T} (G : Sound fp h0 x) {w : Write T} (hw : w.Typed fp) (e : w.run x = .ok y) : Sound fp h0 y := by
  have W := G.wf
  cases w with
  | recordN v c =>
    simp only [Write.run] at e
    obtain ⟨⟨h', r⟩, e1, e2⟩ := M.bind_eq_ok.mp e
    cases e2
    refine ⟨.recordN G.reach hw.1 hw.2 e1, G.cfg.trans ?_⟩
    rw [recordN_seq] at e1
    exact recordSeq_cfg W (by simpa using (show v ≤ U64MAX ∧ c ≤ T.max from hw)) e1
  | saturatingRecordN v c =>
    simp only [Write.run] at e
    refine ⟨.saturatingRecordN G.reach hw.1 hw.2 e, G.cfg.trans ?_⟩
    rw [W.saturatingRecordN_eq hw.1] at e
    cases e
    exact ⟨rfl, rfl, rfl, rfl, rfl⟩
  | recordNCorrect v c i =>
    simp only [Write.run] at e
    obtain ⟨⟨h', r⟩, e1, e2⟩ := M.bind_eq_ok.mp e
    cases e2
    refine ⟨.recordNCorrect G.reach hw.1 hw.2 e1, G.cfg.trans ?_⟩
    rw [recordNCorrect_eq] at e1
    exact recordSeq_cfg W (correct_valid hw.1 hw.2) e1
  | add g =>
    simp only [Write.run] at e
    obtain ⟨⟨h', r⟩, e1, e2⟩ := M.bind_eq_ok.mp e
    cases e2
    refine ⟨.add G.reach hw e1, G.cfg.trans ?_⟩
    obtain ⟨h'', r', e', -, hr⟩ := W.add_spec (Reachable.wf hw)
    rw [e1] at e'
    cases e'
    cases r with
    | ok u =>
      rcases hr with ⟨-, rfl⟩ | ⟨-, -, c, -⟩
      · exact SameConfig.refl _
      · exact c
    | error q =>
      cases q with
      | OtherAddendValueExceedsRange => rw [hr.2.2.2]; exact SameConfig.refl _
      | ResizeFailedUsizeTypeTooSmall => exact hr.elim
  | addCorrect g i =>
    simp only [Write.run] at e
    obtain ⟨⟨h', r⟩, e1, e2⟩ := M.bind_eq_ok.mp e
    cases e2
    refine ⟨.addCorrect G.reach hw e1, G.cfg.trans ?_⟩
    rw [(Reachable.wf hw).addCorrect_eq] at e1
    exact recordSeq_cfg W ((Reachable.wf hw).corrected_valid _) e1
  | subtract g =>
    simp only [Write.run] at e
    obtain ⟨⟨h', r⟩, e1, e2⟩ := M.bind_eq_ok.mp e
    cases e2
    refine ⟨.subtract G.reach hw e1, G.cfg.trans ?_⟩
    obtain ⟨y, r', e', Wy, Ly, -⟩ := W.subtract_full (Reachable.wf hw)
    rw [e1] at e'
    cases e'
    rw [Ly.same]
    exact ⟨rfl, rfl, rfl, rfl, rfl⟩

theorem Sound.fresh {h0 x y : Hist T} (G : Sound fp h0 x) (e : Hist.newFrom fp T x = .ok y) :
    Sound fp h0 y ∧ ∀ j, y.counts.getD j 0 = 0 := by
  obtain ⟨g, e', Wg, ht, hm, -, ha, hlo, hh, hs, hu, hg, -, hle⟩ := G.wf.newFrom_eq (T := T)
  rw [e] at e'
  cases e'
  exact ⟨⟨.newFrom G.reach e, G.cfg.trans ⟨ha, hlo, hs, hu, hg⟩⟩, fun j => by rw [Wg.getD_zero_of_empty ht]⟩

theorem Sound.add {h0 m x y : Hist T} (Gm : Sound fp h0 m) (Gx : Sound fp h0 x) (e : addExpect m x = .ok y) :
    Sound fp h0 y ∧ ∀ j, y.counts.getD j 0 = Min.min (m.counts.getD j 0 + x.counts.getD j 0) T.max := by
  unfold addExpect at e
  obtain ⟨⟨h', r⟩, e1, e2⟩ := M.bind_eq_ok.mp e
  cases r with
  | error q => cases e2
  | ok u =>
    cases e2
    obtain ⟨h'', r', e', -, hr⟩ := Gm.wf.add_spec Gx.wf
    rw [e1] at e'
    cases e'
    rcases hr with ⟨h0', rfl⟩ | ⟨-, -, c, -, -, hc, -⟩
    · refine ⟨Gm, fun j => ?_⟩
      rw [Gx.wf.getD_zero_of_empty h0']
      have := Gm.wf.getD_le j
      omega
    · refine ⟨⟨.add Gm.reach Gx.reach e1, Gm.cfg.trans c⟩, fun j => ?_⟩
      rw [hc, moved_same (Gm.cfg.um.trans Gx.cfg.um.symm) (Gm.cfg.mag.trans Gx.cfg.mag.symm)]

/-- all histograms have the settings of `h0`, and those of dropped recorders are empty -/
structure AllSound (fp : Fp) (h0 : Hist T) (s : Sys (Hist T)) : Prop where
  merged : Sound fp h0 s.merged
  chan : ∀ g ∈ s.chan, Sound fp h0 g
  recs : ∀ r ∈ s.recs, Sound fp h0 r.loc
  gone : ∀ r ∈ s.recs, r.pc = .gone → ∀ j, r.loc.counts.getD j 0 = 0

theorem mem_of_get' {α : Type} {l : List α} {i : Nat} {a : α} (h : l[i]? = some a) : a ∈ l := List.mem_of_getElem? h

theorem allSound_step {h0 : Hist T} {s s' : Sys (Hist T)} {l : Label (Write T)} (G : AllSound fp h0 s)
    (hl : ∀ i w, l = .write i w → w.Typed fp) (st : Step (HistOps.concrete fp T) s l s') : AllSound fp h0 s' := by
  have snoc : ∀ g, Sound fp h0 g → ∀ x ∈ s.chan ++ [g], Sound fp h0 x := by
    intro g hg x hx
    rcases List.mem_append.mp hx with hx | hx
    · exact G.chan x hx
    · simp at hx; subst hx; exact hg
  cases st with
  | write i w r l hr hp hw =>
    refine ⟨G.merged, G.chan, all_set G.recs ((G.recs r (mem_of_get' hr)).write (hl i w rfl) hw), all_set G.gone fun h => ?_⟩
    dsimp only at h
    split at h <;> cases h
  | recorder f hl hrd hf =>
    exact ⟨G.merged, G.chan, all_append G.recs (G.merged.fresh hf).1, all_append G.gone fun h => by cases h⟩
  | clone i r f hr hl hp hf =>
    exact ⟨G.merged, G.chan, all_append G.recs ((G.recs r (mem_of_get' hr)).fresh hf).1, all_append G.gone fun h => by cases h⟩
  | writeSend i r p f hr hp hf =>
    have := G.recs r (mem_of_get' hr)
    exact ⟨G.merged, snoc _ this, all_set G.recs (this.fresh hf).1, all_set G.gone fun h => by cases h⟩
  | idleSend i r p f hr hp hf =>
    have := G.recs r (mem_of_get' hr)
    exact ⟨G.merged, snoc _ this, all_set G.recs (this.fresh hf).1, all_set G.gone fun h => by cases h⟩
  | dropSend i r f hr hp hf =>
    have := G.recs r (mem_of_get' hr)
    exact ⟨G.merged, snoc _ this, all_set G.recs (this.fresh hf).1, all_set G.gone fun _ => (this.fresh hf).2⟩
  | drop i r hr | idle i r hr | idlePhaseNew i r hr | idlePhaseOld i r hr | wake i r hr | wakePhase i r hr | forget i r hr =>
    exact ⟨G.merged, G.chan, all_set G.recs (G.recs r (mem_of_get' hr)), all_set G.gone fun h => by cases h⟩
  | drain t h rest m' hrd hc ha =>
    exact ⟨(G.merged.add (G.chan h (by simp [hc])) ha).1, fun g hg => G.chan g (by simp [hc, hg]), G.recs, G.gone⟩
  | finalRecv h rest m' hrd hc ha =>
    exact ⟨(G.merged.add (G.chan h (by simp [hc])) ha).1, fun g hg => G.chan g (by simp [hc, hg]), G.recs, G.gone⟩
  | recv t n k h rest m' hrd hk hc ha =>
    exact ⟨(G.merged.add (G.chan h (by simp [hc])) ha).1, fun g hg => G.chan g (by simp [hc, hg]), G.recs, G.gone⟩
  | start | drainEnd | count | bump | timeout | waitEnd | finalEnd => exact ⟨G.merged, G.chan, G.recs, G.gone⟩

theorem heldAt_eq {h0 : Hist T} {s : Sys (Hist T)} (G : AllSound fp h0 s) {v : Nat} (hv : v ≤ U64MAX) :
    heldAt v s = total (fun x => x.counts.getD (h0.lidx v) 0) s := by
  unfold heldAt total
  rw [G.merged.samplesAt hv]
  congr 1
  · congr 2
    exact List.map_congr_left fun g hg => (G.chan g hg).samplesAt hv
  · have h1 := G.recs
    have h2 := G.gone
    generalize s.recs = l at h1 h2
    induction l with
    | nil => rfl
    | cons r l ih =>
      have ih := ih (fun r hr => h1 r (by simp [hr])) (fun r hr => h2 r (by simp [hr]))
      have g1 := (h1 r (by simp)).samplesAt hv
      simp only [sumR, List.map_cons, List.sum_cons] at *
      rw [List.filter_cons]
      split
      · rw [List.map_cons, List.sum_cons, ih, g1]
      · rename_i hc
        have : r.pc = .gone := by cases hp : r.pc <;> simp_all [Pc.live]
        rw [ih, h2 r (by simp) this, Nat.zero_add]

theorem step_moves {h0 : Hist T} {s s' : Sys (Hist T)} {l : Label (Write T)} (G : AllSound fp h0 s) (G' : AllSound fp h0 s')
    (st : Step (HistOps.concrete fp T) s l s') {v : Nat} (hv : v ≤ U64MAX) (hm : heldAt v s ≤ T.max) :
    (heldAt v s' : ℤ) = heldAt v s + change v s s' l := by
  rw [heldAt_eq G hv] at hm ⊢
  rw [heldAt_eq G' hv]
  have fr : ∀ x y : Hist T, Sound fp h0 x → Hist.newFrom fp T x = .ok y → y.counts.getD (h0.lidx v) 0 = 0 :=
    fun x y hx e => (hx.fresh e).2 _
  have ad : ∀ g m', g ∈ s.chan → addExpect s.merged g = .ok m' →
      s.merged.counts.getD (h0.lidx v) 0 + g.counts.getD (h0.lidx v) 0 ≤ T.max →
      m'.counts.getD (h0.lidx v) 0 = s.merged.counts.getD (h0.lidx v) 0 + g.counts.getD (h0.lidx v) 0 := by
    intro g m' hg e hle
    rw [(G.merged.add (G.chan g hg) e).2, Nat.min_eq_left hle]
  unfold total at *
  cases st with
  | write i w r l hr hp hw =>
    have h1 := sumR_set (f := fun r => r.loc.counts.getD (h0.lidx v) 0)
      (a := { r with loc := l, pc := if s.phase ≠ r.lastPhase then .send s.phase else .ready }) hr
    have h2 := (G.recs r (mem_of_get' hr)).samplesAt hv
    have hlt : i < s.recs.length := (List.getElem?_eq_some_iff.mp hr).1
    have hr' : (s.put i { r with loc := l, pc := if s.phase ≠ r.lastPhase then .send s.phase else .ready }).recs[i]? =
        some { r with loc := l, pc := if s.phase ≠ r.lastPhase then .send s.phase else .ready } := by
      simp only [Sys.put]
      rw [List.getElem?_set_self hlt]
    have h3 := (G'.recs _ (mem_of_get' hr')).samplesAt hv
    have h4 : localAt v i s = r.loc.counts.getD (h0.lidx v) 0 := by unfold localAt; rw [hr]; exact h2
    simp only [change]
    rw [h4]
    have h5 : localAt v i (s.put i { r with loc := l, pc := if s.phase ≠ r.lastPhase then .send s.phase else .ready }) =
        l.counts.getD (h0.lidx v) 0 := by unfold localAt; rw [hr']; exact h3
    rw [h5]
    simp only [Sys.put] at *
    omega
  | recorder f hl hrd hf =>
    have := fr _ _ G.merged hf
    simp only [sumR_append, change] at *; omega
  | clone i r f hr hl hp hf =>
    have := fr _ _ (G.recs r (mem_of_get' hr)) hf
    simp only [sumR_append, change] at *; omega
  | writeSend i r p f hr hp hf =>
    have := sumR_set (f := fun r => r.loc.counts.getD (h0.lidx v) 0) (a := { loc := f, lastPhase := p, pc := .ready }) hr
    have := fr _ _ (G.recs r (mem_of_get' hr)) hf
    simp only [Sys.put, change, List.map_append, List.sum_append, List.map_cons, List.map_nil, List.sum_cons,
      List.sum_nil] at *; omega
  | drop i r hr hp hl h1 =>
    have := sumR_set (f := fun r => r.loc.counts.getD (h0.lidx v) 0) (a := { r with pc := .dropSend }) hr
    simp only [Sys.put, change] at *; omega
  | dropSend i r f hr hp hf =>
    have := sumR_set (f := fun r => r.loc.counts.getD (h0.lidx v) 0) (a := { r with loc := f, pc := .gone }) hr
    have := fr _ _ (G.recs r (mem_of_get' hr)) hf
    simp only [Sys.put, change, List.map_append, List.sum_append, List.map_cons, List.map_nil, List.sum_cons,
      List.sum_nil] at *; omega
  | idle i r hr hp hl h1 =>
    have := sumR_set (f := fun r => r.loc.counts.getD (h0.lidx v) 0) (a := { r with pc := .idlePhase }) hr
    simp only [Sys.put, change] at *; omega
  | idlePhaseNew i r hr hp hne =>
    have := sumR_set (f := fun r => r.loc.counts.getD (h0.lidx v) 0) (a := { r with pc := .idleSend s.phase }) hr
    simp only [Sys.put, change] at *; omega
  | idlePhaseOld i r hr hp he =>
    have := sumR_set (f := fun r => r.loc.counts.getD (h0.lidx v) 0) (a := { r with lastPhase := s.phase, pc := .idle }) hr
    simp only [Sys.put, change] at *; omega
  | idleSend i r p f hr hp hf =>
    have := sumR_set (f := fun r => r.loc.counts.getD (h0.lidx v) 0) (a := { loc := f, lastPhase := p, pc := .idle }) hr
    have := fr _ _ (G.recs r (mem_of_get' hr)) hf
    simp only [Sys.put, change, List.map_append, List.sum_append, List.map_cons, List.map_nil, List.sum_cons,
      List.sum_nil] at *; omega
  | wake i r hr hp hl =>
    have := sumR_set (f := fun r => r.loc.counts.getD (h0.lidx v) 0) (a := { r with pc := .wakePhase }) hr
    simp only [Sys.put, change] at *; omega
  | wakePhase i r hr hp =>
    have := sumR_set (f := fun r => r.loc.counts.getD (h0.lidx v) 0) (a := { r with lastPhase := s.phase, pc := .ready }) hr
    simp only [Sys.put, change] at *; omega
  | forget i r hr hp =>
    have := sumR_set (f := fun r => r.loc.counts.getD (h0.lidx v) 0) (a := { r with pc := .ready }) hr
    simp only [Sys.put, change] at *; omega
  | drain t h rest m' hrd hc ha | finalRecv h rest m' hrd hc ha =>
    have := ad _ _ (by simp [hc]) ha
    simp only [hc, change, List.map_cons, List.sum_cons] at *; omega
  | recv t n k h rest m' hrd hk hc ha =>
    have := ad _ _ (by simp [hc]) ha
    simp only [hc, change, List.map_cons, List.sum_cons] at *; omega
  | start | drainEnd | count | bump | timeout | waitEnd | finalEnd => simp [change]

theorem allSound_init {h : Hist T} (R : Reachable fp T h) : AllSound fp h (Sys.init h) where
  merged := ⟨R, SameConfig.refl h⟩
  chan := by simp [Sys.init]
  recs := by simp [Sys.init]
  gone := by simp [Sys.init]

/-- all writes have arguments of the right types -/
def TypedRun (fp : Fp) (ls : List (Label (Write T))) : Prop := ∀ w ∈ writesOf ls, w.Typed fp

theorem TypedRun.cons {l : Label (Write T)} {ls : List (Label (Write T))} (h : TypedRun fp (l :: ls)) :
    (∀ i w, l = .write i w → w.Typed fp) ∧ TypedRun fp ls := by
  unfold TypedRun at *
  cases l with
  | write i w => exact ⟨fun i' w' e => by cases e; exact h w (by simp [writesOf]), fun w' hw => h w' (by simp [writesOf, hw])⟩
  | _ => exact ⟨fun _ _ e => (by cases e), h⟩

theorem allSound_exec {h : Hist T} {ls : List (Label (Write T))} (ht : TypedRun fp ls) {s s' : Sys (Hist T)}
    (G : AllSound fp h s) (e : exec (HistOps.concrete fp T) ls s = some (.ok s')) : AllSound fp h s' := by
  induction ls generalizing s with
  | nil => cases e; exact G
  | cons l ls ih =>
    obtain ⟨t, e1, e2⟩ := exec_cons e
    exact ih ht.cons.2 (allSound_step G ht.cons.1 (step_ok e1)) e2

/-- C47 (5): samples are neither lost nor duplicated by any step, whatever is written (`subtract` included): a step changes
the number of samples held in all places together exactly by the change the writing recorder makes to its own local
histogram (what a write does to a histogram is the subject of C09–C23), and the steps that write nothing (sending,
merging, dropping, idling, ...) do not change it. A class may not have more samples than a counter can hold. -/
theorem C47_moved {h : Hist T} (R : Reachable fp T h) {ls : List (Label (Write T))} (ht : TypedRun fp ls)
    {s : Sys (Hist T)} (e : exec (HistOps.concrete fp T) ls (Sys.init h) = some (.ok s)) {l : Label (Write T)}
    (hl : ∀ i w, l = .write i w → w.Typed fp) {s' : Sys (Hist T)} (e' : step (HistOps.concrete fp T) s l = some (.ok s'))
    {v : Nat} (hv : v ≤ U64MAX) (hm : heldAt v s ≤ T.max) :
    (heldAt v s' : ℤ) = heldAt v s + change v s s' l ∧
      ∀ i w, l = .write i w → ∃ r r', s.recs[i]? = some r ∧ s'.recs[i]? = some r' ∧ Reachable fp T r.loc ∧ w.run r.loc = .ok r'.loc := by
  have G := allSound_exec ht (allSound_init R) e
  have st := step_ok e'
  refine ⟨step_moves G (allSound_step G hl st) st hv hm, fun i w hlw => ?_⟩
  subst hlw
  cases st with
  | write _ _ r l hr hp hw =>
    have hlt : i < s.recs.length := (List.getElem?_eq_some_iff.mp hr).1
    refine ⟨r, _, hr, List.getElem?_set_self hlt, (G.recs r (mem_of_get' hr)).reach, hw⟩

/-- C47 (6): so at any time, all places together hold what the initial histogram held and the changes made by all writes. -/
theorem C47_net {h : Hist T} (R : Reachable fp T h) {ls : List (Label (Write T))} (ht : TypedRun fp ls)
    {s : Sys (Hist T)} (e : exec (HistOps.concrete fp T) ls (Sys.init h) = some (.ok s)) {v : Nat} (hv : v ≤ U64MAX)
    (hm : Roomy fp v ls (Sys.init h)) : (heldAt v s : ℤ) = samplesAt h v + netChange fp v ls (Sys.init h) := by
  have key : ∀ (ls : List (Label (Write T))) (s0 s : Sys (Hist T)), TypedRun fp ls → AllSound fp h s0 →
      exec (HistOps.concrete fp T) ls s0 = some (.ok s) → Roomy fp v ls s0 →
      (heldAt v s : ℤ) = heldAt v s0 + netChange fp v ls s0 := by
    intro ls
    induction ls with
    | nil => intro s0 s _ _ e _; cases e; simp [netChange]
    | cons l ls ih =>
      intro s0 s ht G e hm
      obtain ⟨t, e1, e2⟩ := exec_cons e
      have G' := allSound_step G ht.cons.1 (step_ok e1)
      have h1 := step_moves G G' (step_ok e1) hv hm.1
      have h2 := ih t s ht.cons.2 G' e2 (hm.2 t e1)
      simp only [netChange, e1]
      omega
  rw [key ls _ s ht (allSound_init R) e hm]
  simp [heldAt, Sys.init]

/-- C47 (7): and if all recorders are dropped when a refresh begins and no new one is made, then when it has returned the
merged histogram holds all this. -/
theorem C47_net_final {h : Hist T} (R : Reachable fp T h) {ls1 ls2 : List (Label (Write T))} {t : Bool} {s1 s2 : Sys (Hist T)}
    (ht : TypedRun fp (ls1 ++ .start t :: ls2))
    (e1 : exec (HistOps.concrete fp T) ls1 (Sys.init h) = some (.ok s1)) (hgone : ∀ r ∈ s1.recs, r.pc = .gone)
    (e2 : exec (HistOps.concrete fp T) (.start t :: ls2) s1 = some (.ok s2)) (hnew : Label.recorder ∉ ls2)
    (hout : s2.reader = .out) {v : Nat} (hv : v ≤ U64MAX) (hm : Roomy fp v (ls1 ++ .start t :: ls2) (Sys.init h)) :
    (samplesAt s2.merged v : ℤ) = samplesAt h v + netChange fp v (ls1 ++ .start t :: ls2) (Sys.init h) := by
  rw [← C47_net R ht (exec_trans e1 e2) hv hm]
  obtain ⟨s1', e3, e4⟩ := exec_cons e2
  have st := step_ok e3
  have I : (∀ r ∈ s1'.recs, r.pc = .gone) ∧ (s1'.reader = .out → s1'.chan = []) := by
    cases st; exact ⟨hgone, fun h => by cases h⟩
  have J := exec_inv (P := fun _ l => l ≠ .recorder)
    (I := fun s => (∀ r ∈ s.recs, r.pc = .gone) ∧ (s.reader = .out → s.chan = []))
    (fun s l s' I hl st => dropped_step I hl st) I
    (always_of_mem fun l hl _ hc => hnew (hc ▸ hl)) e4
  unfold heldAt
  rw [J.2 hout, List.filter_eq_nil_iff.mpr fun r hr => by rw [J.1 r hr]; simp [Pc.live]]
  simp

/-! ### an instance, with `subtract` -/

instance decAlways {H W : Type} {o : HistOps H W} {P : Sys H → Label W → Prop} [∀ s l, Decidable (P s l)] :
    ∀ (ls : List (Label W)) (s : Sys H), Decidable (Always o P ls s)
  | [], _ => .isTrue trivial
  | l :: ls, s =>
    match h : step o s l with
    | none => decidable_of_iff (P s l) ⟨fun hp => ⟨hp, fun s' e => by rw [h] at e; cases e⟩, fun a => a.1⟩
    | some (.error p) => decidable_of_iff (P s l) ⟨fun hp => ⟨hp, fun s' e => by rw [h] at e; cases e⟩, fun a => a.1⟩
    | some (.ok t) =>
      have := decAlways (o := o) (P := P) ls t
      decidable_of_iff (P s l ∧ Always o P ls t)
        ⟨fun hp => ⟨hp.1, fun s' e => by rw [h] at e; cases e; exact hp.2⟩, fun a => ⟨a.1, a.2 t h⟩⟩

/-- one sample of 5 -/
def demo5 : Hist .u8 := { demo with maxValue := 5, minNonZero := 5, totalCount := 1, counts := [0, 0, 0, 1, 0] }

theorem demo5_eq : demo.recordN 5 1 = .ok (demo5, .ok ()) := by decide

theorem demo5_reachable : Reachable Fp.ideal .u8 demo5 := .recordN demo_reachable (by decide) (by decide) demo5_eq

/-- recorder 0 records 5 three times and takes one away (`demo5` holds one), recorder 1 records 3; both are dropped -/
def movesDemo : List (Label (Write .u8)) :=
  [.recorder, .write 0 (.recordN 5 3), .clone 0, .write 1 (.recordN 3 1), .write 0 (.subtract demo5), .drop 0, .dropSend 0, .drop 1,
   .dropSend 1]

/-- and a refresh -/
def movesDemoEnd : List (Label (Write .u8)) :=
  [.start false, .drain, .drain, .drainEnd, .count, .bump, .waitEnd, .finalEnd]

/-- instance of `C47_net_final` (and of the others): from three samples of 5, three are added and one is taken away -/
example : TypedRun Fp.ideal (movesDemo ++ movesDemoEnd) ∧ Roomy Fp.ideal 5 (movesDemo ++ movesDemoEnd) (Sys.init demo3) ∧
    (∃ s1 s2, exec (HistOps.concrete Fp.ideal .u8) movesDemo (Sys.init demo3) = some (.ok s1) ∧
      exec (HistOps.concrete Fp.ideal .u8) movesDemoEnd s1 = some (.ok s2) ∧
      (∀ r ∈ s1.recs, r.pc = .gone) ∧ s2.reader = .out ∧ samplesAt s2.merged 5 = 5) ∧
    netChange Fp.ideal 5 (movesDemo ++ movesDemoEnd) (Sys.init demo3) = 2 ∧ samplesAt demo3 5 = 3 := by
  refine ⟨?_, by unfold Roomy; decide +kernel, execThen2 (by decide +kernel), by decide +kernel, by decide⟩
  intro w hw
  simp only [movesDemo, movesDemoEnd, List.cons_append, List.nil_append, writesOf, List.mem_cons, List.not_mem_nil, or_false] at hw
  rcases hw with rfl | rfl | rfl
  · exact ⟨by decide, by decide⟩
  · exact ⟨by decide, by decide⟩
  · exact demo5_reachable

end Hdr.Sync
