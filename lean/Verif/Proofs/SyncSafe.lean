import Verif.Proofs.SyncCount

/-!
# No panics, and independence from the lists of writes
-/

namespace Hdr.Sync

variable {H W : Type} {o : HistOps H W}

/-- merged histograms satisfying `Pm` and other histograms satisfying `Pl` work without panics -/
structure Fine (o : HistOps H W) (okW : W → Prop) (Pm Pl : H → Prop) : Prop where
  freshM : ∀ h, Pm h → ∃ f, o.fresh h = .ok f ∧ Pl f
  freshL : ∀ h, Pl h → ∃ f, o.fresh h = .ok f ∧ Pl f
  add : ∀ m h, Pm m → Pl h → ∃ x, o.add m h = .ok x ∧ Pm x
  write : ∀ w h, okW w → Pl h → ∃ x, o.write w h = .ok x ∧ Pl x

/-- all histograms are as required -/
def AllP (Pm Pl : H → Prop) (s : Sys H) : Prop :=
  Pm s.merged ∧ (∀ h ∈ s.chan, Pl h) ∧ ∀ r ∈ s.recs, Pl r.loc

/-- the writes are allowed -/
def okLabel (okW : W → Prop) : Label W → Prop
  | .write _ w => okW w
  | _ => True

theorem mem_snoc {P : H → Prop} {l : List H} {a : H} (h : ∀ x ∈ l, P x) (ha : P a) : ∀ x ∈ l ++ [a], P x := by
  intro x hx
  rcases List.mem_append.mp hx with hx | hx
  · exact h x hx
  · simp at hx; subst hx; exact ha

theorem fine_ok {okW : W → Prop} {Pm Pl : H → Prop} (F : Fine o okW Pm Pl) {s s' : Sys H} {l : Label W}
    (A : AllP Pm Pl s) (hl : okLabel okW l) (st : Step o s l s') : AllP Pm Pl s' := by
  obtain ⟨hm, hc, hr⟩ := A
  cases st with
  | write i w r l hi hp hw =>
    obtain ⟨x, e, hx⟩ := F.write w r.loc hl (hr r (mem_of_get hi))
    rw [e] at hw; cases hw
    exact ⟨hm, hc, all_set hr hx⟩
  | writeSend i r p f hi hp hf =>
    obtain ⟨x, e, hx⟩ := F.freshL r.loc (hr r (mem_of_get hi))
    rw [e] at hf; cases hf
    exact ⟨hm, mem_snoc hc (hr r (mem_of_get hi)), all_set hr hx⟩
  | recorder f hlk hrd hf =>
    obtain ⟨x, e, hx⟩ := F.freshM s.merged hm
    rw [e] at hf; cases hf
    exact ⟨hm, hc, all_append hr hx⟩
  | clone i r f hi hlk hp hf =>
    obtain ⟨x, e, hx⟩ := F.freshL r.loc (hr r (mem_of_get hi))
    rw [e] at hf; cases hf
    exact ⟨hm, hc, all_append hr hx⟩
  | dropSend i r f hi hp hf =>
    obtain ⟨x, e, hx⟩ := F.freshL r.loc (hr r (mem_of_get hi))
    rw [e] at hf; cases hf
    exact ⟨hm, mem_snoc hc (hr r (mem_of_get hi)), all_set hr hx⟩
  | idleSend i r p f hi hp hf =>
    obtain ⟨x, e, hx⟩ := F.freshL r.loc (hr r (mem_of_get hi))
    rw [e] at hf; cases hf
    exact ⟨hm, mem_snoc hc (hr r (mem_of_get hi)), all_set hr hx⟩
  | drop i r hi | idle i r hi | idlePhaseNew i r hi | idlePhaseOld i r hi | wake i r hi | wakePhase i r hi
  | forget i r hi => exact ⟨hm, hc, all_set hr (hr r (mem_of_get hi))⟩
  | drain t h rest m hrd he ha =>
    obtain ⟨x, e, hx⟩ := F.add s.merged h hm (hc h (by rw [he]; simp))
    rw [e] at ha; cases ha
    exact ⟨hx, fun y hy => hc y (by rw [he]; simp [hy]), hr⟩
  | recv t n k h rest m hrd hk he ha =>
    obtain ⟨x, e, hx⟩ := F.add s.merged h hm (hc h (by rw [he]; simp))
    rw [e] at ha; cases ha
    exact ⟨hx, fun y hy => hc y (by rw [he]; simp [hy]), hr⟩
  | finalRecv h rest m hrd he ha =>
    obtain ⟨x, e, hx⟩ := F.add s.merged h hm (hc h (by rw [he]; simp))
    rw [e] at ha; cases ha
    exact ⟨hx, fun y hy => hc y (by rw [he]; simp [hy]), hr⟩
  | start | drainEnd | count | bump | timeout | waitEnd | finalEnd => exact ⟨hm, hc, hr⟩

theorem receive_safe {okW : W → Prop} {Pm Pl : H → Prop} (F : Fine o okW Pm Pl) {s : Sys H} {next : Reader} {p : Panic}
    (A : AllP Pm Pl s) : receive o s next ≠ some (.error p) := by
  intro e
  unfold receive at e
  split at e
  · rename_i h rest hc
    obtain ⟨x, ex, -⟩ := F.add s.merged h A.1 (A.2.1 h (by rw [hc]; simp))
    rw [ex] at e; cases e
  · cases e

theorem noMore_safe {s : Sys H} {next : Reader} {p : Panic} : noMore s next ≠ some (.error p) := by
  intro e
  unfold noMore at e
  split at e <;> cases e

theorem fine_safe {okW : W → Prop} {Pm Pl : H → Prop} (F : Fine o okW Pm Pl) {s : Sys H} {l : Label W} {p : Panic}
    (A : AllP Pm Pl s) (N : s.recorders = sumR countOf s.recs) (hl : okLabel okW l) :
    step o s l ≠ some (.error p) := by
  have pos : ∀ (i : Nat) (r : Rec H), s.recs[i]? = some r → r.pc = .ready → subU s.recorders 1 = .ok (s.recorders - 1) := by
    intro i r hr hp
    have h1 := sumR_le_of_mem (f := countOf) (mem_of_get hr)
    have h2 : countOf r = 1 := by unfold countOf; rw [hp]; rfl
    unfold subU
    rw [if_pos (by omega)]
  intro e
  cases l with
  | write i w =>
    obtain ⟨r, hr, hp, e⟩ := at_some e
    obtain ⟨x, ex, -⟩ := F.write w r.loc hl (A.2.2 r (mem_of_get hr))
    rw [ex] at e; cases e
  | writeSend i =>
    simp only [step, writeSend] at e
    split at e
    · rename_i r hr
      obtain ⟨x, ex, -⟩ := F.freshL r.loc (A.2.2 r (mem_of_get hr))
      split at e
      · rw [ex] at e; cases e
      · cases e
    · cases e
  | recorder =>
    simp only [step, recorder] at e
    obtain ⟨x, ex, -⟩ := F.freshM s.merged A.1
    split at e
    · rw [ex] at e; cases e
    · cases e
  | clone i =>
    simp only [step, clone] at e
    split at e
    · rename_i r hr
      obtain ⟨x, ex, -⟩ := F.freshL r.loc (A.2.2 r (mem_of_get hr))
      split at e
      · rw [ex] at e; cases e
      · cases e
    · cases e
  | drop i =>
    obtain ⟨r, hr, hp, e⟩ := at_some e
    dsimp only at e
    split at e
    · rw [pos i r hr hp] at e; cases e
    · cases e
  | dropSend i =>
    obtain ⟨r, hr, hp, e⟩ := at_some e
    obtain ⟨x, ex, -⟩ := F.freshL r.loc (A.2.2 r (mem_of_get hr))
    rw [ex] at e; cases e
  | idle i =>
    obtain ⟨r, hr, hp, e⟩ := at_some e
    dsimp only at e
    split at e
    · rw [pos i r hr hp] at e; cases e
    · cases e
  | idlePhase i =>
    obtain ⟨r, hr, hp, e⟩ := at_some e
    dsimp only at e
    split at e <;> cases e
  | idleSend i =>
    simp only [step, idleSend] at e
    split at e
    · rename_i r hr
      obtain ⟨x, ex, -⟩ := F.freshL r.loc (A.2.2 r (mem_of_get hr))
      split at e
      · rw [ex] at e; cases e
      · cases e
    · cases e
  | wake i =>
    obtain ⟨r, hr, hp, e⟩ := at_some e
    dsimp only at e
    split at e <;> cases e
  | wakePhase i =>
    obtain ⟨r, hr, hp, e⟩ := at_some e
    cases e
  | forget i =>
    obtain ⟨r, hr, hp, e⟩ := at_some e
    cases e
  | start t =>
    simp only [step, start] at e
    split at e <;> cases e
  | drain =>
    simp only [step, drain] at e
    split at e
    · exact receive_safe F A e
    · cases e
  | drainEnd =>
    simp only [step, drainEnd] at e
    split at e
    · exact noMore_safe e
    · cases e
  | count =>
    simp only [step, count] at e
    split at e
    · split at e <;> cases e
    · cases e
  | bump =>
    simp only [step, bump] at e
    split at e <;> cases e
  | recv =>
    simp only [step, recv] at e
    split at e
    · split at e
      · exact receive_safe F A e
      · cases e
    · cases e
  | timeout =>
    simp only [step, timeout] at e
    split at e
    · split at e <;> cases e
    · cases e
  | waitEnd =>
    simp only [step, waitEnd] at e
    split at e
    · split at e <;> cases e
    · cases e
  | finalRecv =>
    simp only [step, finalRecv] at e
    split at e
    · exact receive_safe F A e
    · cases e
  | finalEnd =>
    simp only [step, finalEnd] at e
    split at e
    · exact noMore_safe e
    · cases e

theorem fine_exec {okW : W → Prop} {Pm Pl : H → Prop} (F : Fine o okW Pm Pl) {ls : List (Label W)} {s : Sys H}
    (A : AllP Pm Pl s) (N : s.recorders = sumR countOf s.recs) (hl : ∀ l ∈ ls, okLabel okW l ∧ ∀ i, l ≠ .forget i) :
    exec o ls s = none ∨ ∃ s', exec o ls s = some (.ok s') ∧ AllP Pm Pl s' := by
  induction ls generalizing s with
  | nil => exact Or.inr ⟨s, rfl, A⟩
  | cons l ls ih =>
    have hl1 := hl l (by simp)
    simp only [exec]
    cases e : step o s l with
    | none => exact Or.inl rfl
    | some x =>
      cases x with
      | error p => exact absurd e (fine_safe F A N hl1.1)
      | ok t =>
        have st := step_ok e
        have nf : NotForget s l := by
          cases l <;> first | trivial | exact absurd rfl (hl1.2 _)
        exact ih (fine_ok F A hl1.1 st)
          (Nat.le_antisymm (count_le_step N.le st) (count_ge_step N.ge nf st)) (fun l' h' => hl l' (by simp [h']))

/-! ## The lists of writes do not matter -/

/-- drop the list of writes of one recorder -/
def Rec.erase (r : Rec (H × List W)) : Rec H := { loc := r.loc.1, lastPhase := r.lastPhase, pc := r.pc }

theorem erase_get {s : Sys (H × List W)} {i : Nat} : s.erase.recs[i]? = (s.recs[i]?).map Rec.erase := by
  simp only [Sys.erase, List.getElem?_map]; rfl

theorem erase_put {s : Sys (H × List W)} {i : Nat} {r : Rec (H × List W)} :
    (s.put i r).erase = s.erase.put i r.erase := by
  simp only [Sys.erase, Sys.put, List.map_set]; rfl

/-- apply `erase` to the outcome of a step -/
def eraseOut : Option (M (Sys (H × List W))) → Option (M (Sys H))
  | none => none
  | some (.error p) => some (.error p)
  | some (.ok s) => some (.ok s.erase)

theorem erase_at {s : Sys (H × List W)} {i : Nat} {pc : Pc} {k : Rec (H × List W) → Option (M (Sys (H × List W)))}
    {k' : Rec H → Option (M (Sys H))} (h : ∀ r, k' r.erase = eraseOut (k r)) :
    s.erase.at i pc k' = eraseOut (s.at i pc k) := by
  unfold Sys.at
  rw [erase_get]
  cases s.recs[i]? with
  | none => rfl
  | some r =>
    simp only [Option.map_some]
    by_cases hp : r.pc = pc
    · rw [if_pos hp, if_pos (show r.erase.pc = pc from hp)]; exact h r
    · rw [if_neg hp, if_neg (show ¬ r.erase.pc = pc from hp)]; rfl

theorem erase_bind {x : M H} {y : M (H × List W)} {k : H × List W → M (Sys (H × List W))} {k' : H → M (Sys H)}
    (hx : x = Prod.fst <$> y) (hk : ∀ a, eraseOut (some (k a)) = some (k' a.1)) :
    some (x >>= k') = eraseOut (some (y >>= k)) := by
  subst hx
  cases y with
  | error p => rfl
  | ok a => exact (hk a).symm

theorem traced_fresh {p : H × List W} : o.fresh p.1 = Prod.fst <$> o.traced.fresh p := by
  simp only [HistOps.traced]
  cases o.fresh p.1 <;> rfl

theorem traced_add {m h : H × List W} : o.add m.1 h.1 = Prod.fst <$> o.traced.add m h := by
  simp only [HistOps.traced]
  cases o.add m.1 h.1 <;> rfl

theorem traced_write {w : W} {p : H × List W} : o.write w p.1 = Prod.fst <$> o.traced.write w p := by
  simp only [HistOps.traced]
  cases o.write w p.1 <;> rfl

theorem erase_receive {s : Sys (H × List W)} {next : Reader} :
    receive o s.erase next = eraseOut (receive o.traced s next) := by
  unfold receive
  simp only [Sys.erase]
  cases s.chan with
  | nil => rfl
  | cons h rest => exact erase_bind traced_add fun a => rfl

theorem erase_noMore {s : Sys (H × List W)} {next : Reader} : noMore s.erase next = eraseOut (noMore s next) := by
  unfold noMore
  simp only [Sys.erase]
  cases s.chan <;> rfl

theorem erase_step {s : Sys (H × List W)} {l : Label W} : step o s.erase l = eraseOut (step o.traced s l) := by
  cases l with
  | write i w =>
    exact erase_at fun r => erase_bind traced_write fun a => by
      simp only [eraseOut]
      exact congrArg (fun x => some (Except.ok x)) erase_put
  | writeSend i =>
    simp only [step, writeSend]
    rw [erase_get]
    cases s.recs[i]? with
    | none => rfl
    | some r =>
      simp only [Option.map_some]
      have : r.erase.pc = r.pc := rfl
      rw [this]
      cases r.pc with
      | send p =>
        exact erase_bind traced_fresh fun a => by
          simp [eraseOut, Sys.erase, Sys.put, List.map_set, Rec.erase]
      | _ => rfl
  | recorder =>
    simp only [step, recorder]
    by_cases hc : s.lock = none ∧ s.reader = .out
    · rw [if_pos hc, if_pos (show s.erase.lock = none ∧ s.erase.reader = .out from hc)]
      exact erase_bind traced_fresh fun a => by
        simp [eraseOut, Sys.erase]
    · rw [if_neg hc, if_neg (show ¬ (s.erase.lock = none ∧ s.erase.reader = .out) from hc)]; rfl
  | clone i =>
    simp only [step, clone]
    rw [erase_get]
    cases s.recs[i]? with
    | none => rfl
    | some r =>
      simp only [Option.map_some]
      by_cases hc : s.lock = none ∧ (r.pc = .ready ∨ r.pc = .idle)
      · rw [if_pos hc, if_pos (show s.erase.lock = none ∧ (r.erase.pc = .ready ∨ r.erase.pc = .idle) from hc)]
        exact erase_bind traced_fresh fun a => by
          simp [eraseOut, Sys.erase, Rec.erase]
      · rw [if_neg hc, if_neg (show ¬ (s.erase.lock = none ∧ (r.erase.pc = .ready ∨ r.erase.pc = .idle)) from hc)]; rfl
  | drop i =>
    refine erase_at fun r => ?_
    by_cases hc : s.lock = none
    · rw [if_pos hc, if_pos (show s.erase.lock = none from hc)]
      simp only [Sys.erase]
      cases subU s.recorders 1 with
      | error p => rfl
      | ok n => simp [eraseOut, Sys.erase, Sys.put, List.map_set, Rec.erase, bind, Except.bind, pure, Except.pure]
    · rw [if_neg hc, if_neg (show ¬ s.erase.lock = none from hc)]; rfl
  | dropSend i =>
    exact erase_at fun r => erase_bind traced_fresh fun a => by
      simp [eraseOut, Sys.erase, Sys.put, List.map_set, Rec.erase]
  | idle i =>
    refine erase_at fun r => ?_
    by_cases hc : s.lock = none
    · rw [if_pos hc, if_pos (show s.erase.lock = none from hc)]
      simp only [Sys.erase]
      cases subU s.recorders 1 with
      | error p => rfl
      | ok n => simp [eraseOut, Sys.erase, Sys.put, List.map_set, Rec.erase, bind, Except.bind, pure, Except.pure]
    · rw [if_neg hc, if_neg (show ¬ s.erase.lock = none from hc)]; rfl
  | idlePhase i =>
    refine erase_at fun r => ?_
    by_cases hc : s.phase ≠ r.lastPhase
    · rw [if_pos hc, if_pos (show s.erase.phase ≠ r.erase.lastPhase from hc)]
      simp [eraseOut, Sys.erase, Sys.put, List.map_set, Rec.erase, pure, Except.pure]
    · rw [if_neg hc, if_neg (show ¬ s.erase.phase ≠ r.erase.lastPhase from hc)]
      simp [eraseOut, Sys.erase, Sys.put, List.map_set, Rec.erase, pure, Except.pure]
  | idleSend i =>
    simp only [step, idleSend]
    rw [erase_get]
    cases s.recs[i]? with
    | none => rfl
    | some r =>
      simp only [Option.map_some]
      have : r.erase.pc = r.pc := rfl
      rw [this]
      cases r.pc with
      | idleSend p =>
        exact erase_bind traced_fresh fun a => by
          simp [eraseOut, Sys.erase, Sys.put, List.map_set, Rec.erase]
      | _ => rfl
  | wake i =>
    refine erase_at fun r => ?_
    by_cases hc : s.lock = none
    · rw [if_pos hc, if_pos (show s.erase.lock = none from hc)]
      simp [eraseOut, Sys.erase, Sys.put, List.map_set, Rec.erase, pure, Except.pure]
    · rw [if_neg hc, if_neg (show ¬ s.erase.lock = none from hc)]; rfl
  | wakePhase i =>
    refine erase_at fun r => ?_
    simp [eraseOut, Sys.erase, Sys.put, List.map_set, Rec.erase, pure, Except.pure]
  | forget i =>
    refine erase_at fun r => ?_
    simp [eraseOut, Sys.erase, Sys.put, List.map_set, Rec.erase, pure, Except.pure]
  | start t =>
    simp only [step, start, Sys.erase]
    cases s.reader <;> rfl
  | drain =>
    simp only [step, drain]
    have : s.erase.reader = s.reader := rfl
    rw [this]
    cases s.reader <;> first | exact erase_receive | rfl
  | drainEnd =>
    simp only [step, drainEnd]
    have : s.erase.reader = s.reader := rfl
    rw [this]
    cases s.reader <;> first | exact erase_noMore | rfl
  | count =>
    simp only [step, count]
    have : s.erase.reader = s.reader := rfl
    rw [this]
    cases s.reader with
    | count t =>
      by_cases hc : s.lock = none
      · simp only [if_pos hc, if_pos (show s.erase.lock = none from hc)]; rfl
      · simp only [if_neg hc, if_neg (show ¬ s.erase.lock = none from hc)]; rfl
    | _ => rfl
  | bump =>
    simp only [step, bump, Sys.erase]
    cases s.reader <;> rfl
  | recv =>
    simp only [step, recv]
    have : s.erase.reader = s.reader := rfl
    rw [this]
    cases s.reader with
    | wait t n k =>
      by_cases hc : k < n
      · simp only [if_pos hc]; exact erase_receive
      · simp only [if_neg hc]; rfl
    | _ => rfl
  | timeout =>
    simp only [step, timeout, Sys.erase]
    cases s.reader with
    | wait t n k =>
      cases t with
      | false => rfl
      | true =>
        by_cases hc : k < n
        · simp only [if_pos hc]; rfl
        · simp only [if_neg hc]; rfl
    | _ => rfl
  | waitEnd =>
    simp only [step, waitEnd, Sys.erase]
    cases s.reader with
    | wait t n k =>
      by_cases hc : k < n
      · simp only [if_pos hc]; rfl
      · simp only [if_neg hc]; rfl
    | _ => rfl
  | finalRecv =>
    simp only [step, finalRecv]
    have : s.erase.reader = s.reader := rfl
    rw [this]
    cases s.reader <;> first | exact erase_receive | rfl
  | finalEnd =>
    simp only [step, finalEnd]
    have : s.erase.reader = s.reader := rfl
    rw [this]
    cases s.reader <;> first | exact erase_noMore | rfl

theorem erase_exec {ls : List (Label W)} {s : Sys (H × List W)} :
    exec o ls s.erase = eraseOut (exec o.traced ls s) := by
  induction ls generalizing s with
  | nil => rfl
  | cons l ls ih =>
    simp only [exec]
    rw [erase_step]
    cases step o.traced s l with
    | none => rfl
    | some x =>
      cases x with
      | error p => rfl
      | ok t => exact ih

end Hdr.Sync
