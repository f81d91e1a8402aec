import Verif.Proofs.Sync

/-!
# Contents are conserved
-/

namespace Hdr.Sync

variable {H W : Type} {o : HistOps H W}

/-- `μ` measures the contents of histograms: nothing in a new one, added up by `add`, and increased by `δ w` by a write -/
structure Measure (o : HistOps H W) (μ : H → Nat) (δ : W → Nat) : Prop where
  fresh : ∀ h f, o.fresh h = .ok f → μ f = 0
  add : ∀ a b c, o.add a b = .ok c → μ c = μ a + μ b
  write : ∀ w h g, o.write w h = .ok g → μ g = μ h + δ w

/-- what a label adds -/
def labelSize (δ : W → Nat) : Label W → Nat
  | .write _ w => δ w
  | _ => 0

/-- all contents: merged, in the channel, local -/
def total (μ : H → Nat) (s : Sys H) : Nat := μ s.merged + (s.chan.map μ).sum + sumR (fun r => μ r.loc) s.recs

theorem total_step {μ : H → Nat} {δ : W → Nat} (m : Measure o μ δ) {s s' : Sys H} {l : Label W} (st : Step o s l s') :
    total μ s' = total μ s + labelSize δ l := by
  unfold total
  cases st with
  | write i w r l hr hp hw =>
    have := sumR_set (f := fun r => μ r.loc)
      (a := { r with loc := l, pc := if s.phase ≠ r.lastPhase then .send s.phase else .ready }) hr
    have := m.write _ _ _ hw
    simp only [Sys.put, labelSize] at *; omega
  | recorder f hl hrd hf =>
    have := m.fresh _ _ hf
    simp only [sumR_append, labelSize] at *; omega
  | clone i r f hr hl hp hf =>
    have := m.fresh _ _ hf
    simp only [sumR_append, labelSize] at *; omega
  | writeSend i r p f hr hp hf =>
    have := sumR_set (f := fun r => μ r.loc) (a := { loc := f, lastPhase := p, pc := .ready }) hr
    have := m.fresh _ _ hf
    simp only [Sys.put, labelSize, List.map_append, List.sum_append, List.map_cons, List.map_nil, List.sum_cons,
      List.sum_nil] at *; omega
  | drop i r hr hp hl h1 =>
    have := sumR_set (f := fun r => μ r.loc) (a := { r with pc := .dropSend }) hr
    simp only [Sys.put, labelSize] at *; omega
  | dropSend i r f hr hp hf =>
    have := sumR_set (f := fun r => μ r.loc) (a := { r with loc := f, pc := .gone }) hr
    have := m.fresh _ _ hf
    simp only [Sys.put, labelSize, List.map_append, List.sum_append, List.map_cons, List.map_nil, List.sum_cons,
      List.sum_nil] at *; omega
  | idle i r hr hp hl h1 =>
    have := sumR_set (f := fun r => μ r.loc) (a := { r with pc := .idlePhase }) hr
    simp only [Sys.put, labelSize] at *; omega
  | idlePhaseNew i r hr hp hne =>
    have := sumR_set (f := fun r => μ r.loc) (a := { r with pc := .idleSend s.phase }) hr
    simp only [Sys.put, labelSize] at *; omega
  | idlePhaseOld i r hr hp he =>
    have := sumR_set (f := fun r => μ r.loc) (a := { r with lastPhase := s.phase, pc := .idle }) hr
    simp only [Sys.put, labelSize] at *; omega
  | idleSend i r p f hr hp hf =>
    have := sumR_set (f := fun r => μ r.loc) (a := { loc := f, lastPhase := p, pc := .idle }) hr
    have := m.fresh _ _ hf
    simp only [Sys.put, labelSize, List.map_append, List.sum_append, List.map_cons, List.map_nil, List.sum_cons,
      List.sum_nil] at *; omega
  | wake i r hr hp hl =>
    have := sumR_set (f := fun r => μ r.loc) (a := { r with pc := .wakePhase }) hr
    simp only [Sys.put, labelSize] at *; omega
  | wakePhase i r hr hp =>
    have := sumR_set (f := fun r => μ r.loc) (a := { r with lastPhase := s.phase, pc := .ready }) hr
    simp only [Sys.put, labelSize] at *; omega
  | forget i r hr hp =>
    have := sumR_set (f := fun r => μ r.loc) (a := { r with pc := .ready }) hr
    simp only [Sys.put, labelSize] at *; omega
  | drain t h rest m' hrd hc ha | finalRecv h rest m' hrd hc ha =>
    have := m.add _ _ _ ha
    simp only [hc, labelSize, List.map_cons, List.sum_cons] at *; omega
  | recv t n k h rest m' hrd hk hc ha =>
    have := m.add _ _ _ ha
    simp only [hc, labelSize, List.map_cons, List.sum_cons] at *; omega
  | start | drainEnd | count | bump | timeout | waitEnd | finalEnd => simp [labelSize]

theorem total_exec {μ : H → Nat} {δ : W → Nat} (m : Measure o μ δ) {ls : List (Label W)} {s s' : Sys H}
    (e : exec o ls s = some (.ok s')) : total μ s' = total μ s + (ls.map (labelSize δ)).sum := by
  induction ls generalizing s with
  | nil => cases e; simp
  | cons l ls ih =>
    obtain ⟨t, e1, e2⟩ := exec_cons e
    have h1 := ih e2
    have h2 := total_step m (step_ok e1)
    simp only [List.map_cons, List.sum_cons]
    omega

/-- a dropped recorder holds nothing -/
theorem gone_step {μ : H → Nat} {δ : W → Nat} (m : Measure o μ δ) {s s' : Sys H} {l : Label W}
    (I : ∀ r ∈ s.recs, r.pc = .gone → μ r.loc = 0) (st : Step o s l s') : ∀ r ∈ s'.recs, r.pc = .gone → μ r.loc = 0 := by
  cases st with
  | write i w r l hr hp hw =>
    refine all_set I fun h => ?_
    dsimp only at h
    split at h <;> cases h
  | recorder f hl hrd hf => exact all_append I fun h => by cases h
  | clone i r f hr hl hp hf => exact all_append I fun h => by cases h
  | dropSend i r f hr hp hf => exact all_set I fun _ => m.fresh _ _ hf
  | writeSend | drop | idle | idlePhaseNew | idlePhaseOld | idleSend | wake | wakePhase | forget =>
    exact all_set I fun h => by cases h
  | start | drain | drainEnd | count | bump | recv | timeout | waitEnd | finalRecv | finalEnd => exact I

theorem gone_exec {μ : H → Nat} {δ : W → Nat} (m : Measure o μ δ) {h : H} {ls : List (Label W)} {s : Sys H}
    (e : exec o ls (Sys.init h) = some (.ok s)) : ∀ r ∈ s.recs, r.pc = .gone → μ r.loc = 0 :=
  exec_inv (I := fun s => ∀ r ∈ s.recs, r.pc = .gone → μ r.loc = 0) (fun _ _ _ I _ st => gone_step m I st)
    (by simp [Sys.init]) always_true e

/-! ## The lists of writes -/

variable [DecidableEq W]

/-- how often `w` occurs -/
theorem traced_measure (w : W) : Measure o.traced (fun h => h.2.count w) (fun x => if x = w then 1 else 0) where
  fresh := by
    intro h f e
    simp only [HistOps.traced] at e
    rw [M.bind_eq_ok] at e
    obtain ⟨x, -, e⟩ := e
    cases e; rfl
  add := by
    intro a b c e
    simp only [HistOps.traced] at e
    rw [M.bind_eq_ok] at e
    obtain ⟨x, -, e⟩ := e
    cases e; simp
  write := by
    intro x h g e
    simp only [HistOps.traced] at e
    rw [M.bind_eq_ok] at e
    obtain ⟨y, -, e⟩ := e
    cases e; simp [List.count_cons]

theorem count_writesOf {w : W} {ls : List (Label W)} :
    (writesOf ls).count w = (ls.map (labelSize fun x => if x = w then 1 else 0)).sum := by
  induction ls with
  | nil => rfl
  | cons l ls ih =>
    cases l <;> simp only [writesOf, List.map_cons, List.sum_cons, labelSize, List.count_cons, ih, beq_iff_eq] <;> omega

theorem count_chanWrites {w : W} {s : Sys (H × List W)} :
    s.chanWrites.count w = (s.chan.map fun h => h.2.count w).sum := by
  unfold Sys.chanWrites
  rw [List.count_flatMap]
  rfl

theorem count_localWrites {w : W} {p : Pc → Bool} {s : Sys (H × List W)} :
    (s.localWrites p).count w = sumR (fun r => if p r.pc then r.loc.2.count w else 0) s.recs := by
  unfold Sys.localWrites
  rw [List.count_flatMap]
  generalize s.recs = l
  induction l with
  | nil => rfl
  | cons x xs ih =>
    simp only [sumR, List.map_cons, List.sum_cons] at *
    rw [List.filter_cons]
    split
    · rw [List.map_cons, List.sum_cons, ih]; rfl
    · rw [ih]; omega

theorem conserved {h : H} {ls : List (Label W)} {s : Sys (H × List W)}
    (e : exec o.traced ls (Sys.init (h, [])) = some (.ok s)) (w : W) :
    s.merged.2.count w + s.chanWrites.count w + (s.localWrites Pc.live).count w = (writesOf ls).count w := by
  have h1 := total_exec (traced_measure (o := o) w) e
  have h2 := gone_exec (traced_measure (o := o) w) e
  rw [count_chanWrites, count_localWrites, count_writesOf, ← sumR_congr (f := fun r => r.loc.2.count w)]
  · simp only [total, Sys.init, sumR_nil] at h1
    simp at h1
    simpa using h1
  · intro r hr
    split
    · rfl
    · rename_i hc
      refine h2 r hr ?_
      cases hp : r.pc <;> simp_all [Pc.live]

end Hdr.Sync
