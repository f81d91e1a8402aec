import Verif.Proofs.SyncCount

/-!
# The reader is not held up
-/

namespace Hdr.Sync

variable {H W : Type} {o : HistOps H W}

/-- phases only grow, and recorders are never ahead -/
def PhaseOk (phase : Nat) (r : Rec H) : Prop :=
  r.lastPhase ≤ phase ∧ (∀ p, r.pc = .send p → r.lastPhase < p ∧ p ≤ phase) ∧ (∀ p, r.pc = .idleSend p → p ≤ phase)

theorem PhaseOk.succ {phase : Nat} {r : Rec H} (h : PhaseOk phase r) : PhaseOk (phase + 1) r :=
  ⟨by have := h.1; omega, fun p hp => by have := h.2.1 p hp; omega, fun p hp => by have := h.2.2 p hp; omega⟩

theorem phase_step {s s' : Sys H} {l : Label W} (I : ∀ r ∈ s.recs, PhaseOk s.phase r) (st : Step o s l s') :
    ∀ r ∈ s'.recs, PhaseOk s'.phase r := by
  cases st with
  | write i w r l hr hp hw =>
    have h := I r (mem_of_get hr)
    refine all_set I ⟨h.1, fun p hq => ?_, fun p hq => ?_⟩
    · dsimp only at hq
      split at hq
      · cases hq; have := h.1; dsimp only [Sys.put]; omega
      · cases hq
    · dsimp only at hq
      split at hq <;> cases hq
  | recorder f hl hrd hf => exact all_append I ⟨le_refl _, fun p h => (by cases h), fun p h => (by cases h)⟩
  | clone i r f hr hl hp hf =>
    exact all_append I ⟨(I r (mem_of_get hr)).1, fun p h => (by cases h), fun p h => (by cases h)⟩
  | writeSend i r p f hr hp hf =>
    exact all_set I ⟨((I r (mem_of_get hr)).2.1 p hp).2, fun p h => (by cases h), fun p h => (by cases h)⟩
  | idleSend i r p f hr hp hf =>
    exact all_set I ⟨(I r (mem_of_get hr)).2.2 p hp, fun p h => (by cases h), fun p h => (by cases h)⟩
  | idlePhaseNew i r hr hp hne =>
    exact all_set I ⟨(I r (mem_of_get hr)).1, fun p h => (by cases h), fun p h => (by cases h; exact le_refl _)⟩
  | idlePhaseOld i r hr hp he => exact all_set I ⟨le_refl _, fun p h => (by cases h), fun p h => (by cases h)⟩
  | wakePhase i r hr hp => exact all_set I ⟨le_refl _, fun p h => (by cases h), fun p h => (by cases h)⟩
  | drop i r hr hp | idle i r hr hp | wake i r hr hp | forget i r hr hp =>
    exact all_set I ⟨(I r (mem_of_get hr)).1, fun p h => (by cases h), fun p h => (by cases h)⟩
  | dropSend i r f hr hp hf =>
    exact all_set I ⟨(I r (mem_of_get hr)).1, fun p h => (by cases h), fun p h => (by cases h)⟩
  | bump => exact fun r hr => (I r hr).succ
  | start | drain | drainEnd | count | recv | timeout | waitEnd | finalRecv | finalEnd => exact I

/-! ## Between the count and the phase change -/

/-- the recorder will send a histogram for the phase about to begin -/
def due (r : Rec H) : Nat :=
  match r.pc with
  | .ready | .send _ | .dropSend => 1
  | _ => 0

/-- the sends still to come, with those in the channel, are at least the number of recorders counted -/
def GapInv (s : Sys H) : Prop := ∀ t n, s.reader = .counted t n → n ≤ s.chan.length + sumR due s.recs

theorem set_le {f : Rec H → Nat} {l : List (Rec H)} {i : Nat} {r a : Rec H} (hr : l[i]? = some r) (d : Nat)
    (h : f r ≤ f a + d) : sumR f l ≤ sumR f (l.set i a) + d := by
  have := sumR_set (f := f) (a := a) hr
  omega

theorem gap_put {s t : Sys H} {i : Nat} {r a : Rec H} {d : Nat} (I : GapInv s) (hr : s.recs[i]? = some r)
    (h : due r ≤ due a + d) (h1 : t.reader = s.reader) (h2 : t.recs = s.recs.set i a)
    (h3 : t.chan.length = s.chan.length + d) : GapInv t := by
  intro tm n hn
  rw [h1] at hn
  have := I tm n hn
  have := set_le hr d h
  rw [h2, h3]; omega

theorem countOf_le_due {s : Sys H} (L : LockInv s) (hl : s.lock = none) : sumR countOf s.recs ≤ sumR due s.recs := by
  apply sumR_le
  intro r hr
  obtain ⟨i, hi⟩ := List.mem_iff_getElem?.mp hr
  have := L.none_of_lock hl i r hi
  unfold countOf due
  cases hp : r.pc <;> simp_all [Pc.counted, Pc.holds]

theorem gap_step {s s' : Sys H} {l : Label W} (I : GapInv s) (L : LockInv s) (C : s.recorders ≤ sumR countOf s.recs)
    (hl : NoIdleInGap s l) (st : Step o s l s') : GapInv s' := by
  cases st with
  | write i w r l hr hp hw =>
    refine gap_put (d := 0) I hr ?_ rfl rfl rfl
    unfold due; dsimp only; rw [hp]; by_cases hc : s.phase = r.lastPhase <;> simp [hc]
  | recorder f hl hrd hf =>
    intro t n hn; dsimp only at hn; rw [hrd] at hn; cases hn
  | clone i r f hr hl hp hf =>
    intro t n hn
    have := I t n hn
    rw [sumR_append]; dsimp only; omega
  | writeSend i r p f hr hp hf =>
    refine gap_put (d := 1) I hr ?_ rfl rfl (by simp)
    unfold due; rw [hp]; dsimp only; omega
  | drop i r hr hp =>
    refine gap_put (d := 0) I hr ?_ rfl rfl rfl
    unfold due; rw [hp]
  | dropSend i r f hr hp hf =>
    refine gap_put (d := 1) I hr ?_ rfl rfl (by simp)
    unfold due; rw [hp]
  | idle i r hr hp =>
    intro t n hn
    exact absurd hn (hl t n)
  | idlePhaseNew i r hr hp hne =>
    refine gap_put (d := 0) I hr ?_ rfl rfl rfl
    unfold due; rw [hp]
  | idlePhaseOld i r hr hp he =>
    refine gap_put (d := 0) I hr ?_ rfl rfl rfl
    unfold due; rw [hp]
  | idleSend i r p f hr hp hf =>
    refine gap_put (d := 1) I hr ?_ rfl rfl (by simp)
    unfold due; rw [hp]; dsimp only; omega
  | wake i r hr hp =>
    refine gap_put (d := 0) I hr ?_ rfl rfl rfl
    unfold due; rw [hp]
  | wakePhase i r hr hp =>
    refine gap_put (d := 0) I hr ?_ rfl rfl rfl
    unfold due; rw [hp]; dsimp only; omega
  | forget i r hr hp =>
    refine gap_put (d := 0) I hr ?_ rfl rfl rfl
    unfold due; rw [hp]; dsimp only; omega
  | count t hrd hlk =>
    intro t' n hn
    cases hn
    have := countOf_le_due L hlk
    dsimp only; omega
  | start | drain | drainEnd | bump | recv | timeout | waitEnd | finalRecv | finalEnd =>
    intro t n hn; cases hn

/-! ## After the phase change -/

/-- the recorder has yet to send a histogram for the current phase -/
def owes (phase : Nat) (r : Rec H) : Nat :=
  match r.pc with
  | .ready | .send _ | .idlePhase => if r.lastPhase ≠ phase then 1 else 0
  | .dropSend | .idleSend _ => 1
  | _ => 0

/-- the histograms received, in the channel, and owed by the first `N` recorders are enough -/
def WaitInv (N : Nat) (s : Sys H) : Prop :=
  N ≤ s.recs.length ∧
    ∀ t n k, s.reader = .wait t n k → n ≤ k + s.chan.length + sumR (owes s.phase) (s.recs.take N)

theorem take_set_le {f : Rec H → Nat} {l : List (Rec H)} {i N : Nat} {r a : Rec H} (hr : l[i]? = some r) (d : Nat)
    (h : f r ≤ f a + d) : sumR f (l.take N) ≤ sumR f ((l.set i a).take N) + d := by
  rw [List.take_set]
  by_cases hi : i < N
  · exact set_le (by rw [List.getElem?_take_of_lt hi]; exact hr) d h
  · rw [List.set_eq_of_length_le (by simp; omega)]; omega

theorem wait_put {N : Nat} {s t : Sys H} {i : Nat} {r a : Rec H} {d : Nat} (I : WaitInv N s) (hr : s.recs[i]? = some r)
    (h : owes s.phase r ≤ owes s.phase a + d) (h1 : t.reader = s.reader) (h2 : t.recs = s.recs.set i a)
    (h3 : t.chan.length = s.chan.length + d) (h4 : t.phase = s.phase) : WaitInv N t := by
  refine ⟨by rw [h2, List.length_set]; exact I.1, fun tm n k hn => ?_⟩
  rw [h1] at hn
  have := I.2 tm n k hn
  have := take_set_le (N := N) hr d h
  rw [h2, h3, h4]; omega

theorem wait_step {N : Nat} {s s' : Sys H} {l : Label W} (I : WaitInv N s)
    (hl : l ≠ .bump) (st : Step o s l s') : WaitInv N s' := by
  cases st with
  | write i w r l hr hp hw =>
    refine wait_put (d := 0) I hr ?_ rfl rfl rfl rfl
    unfold owes; dsimp only; rw [hp]; by_cases hc : s.phase = r.lastPhase <;> simp [hc]
  | recorder f hl hrd hf =>
    refine ⟨by have := I.1; simp; omega, fun t n k hn => ?_⟩
    dsimp only at hn; rw [hrd] at hn; cases hn
  | clone i r f hr hl hp hf =>
    refine ⟨by have := I.1; simp; omega, fun t n k hn => ?_⟩
    have := I.2 t n k hn
    rw [List.take_append_of_le_length I.1]; exact this
  | writeSend i r p f hr hp hf =>
    refine wait_put (d := 1) I hr ?_ rfl rfl (by simp) rfl
    unfold owes; rw [hp]; dsimp only; split <;> omega
  | drop i r hr hp =>
    refine wait_put (d := 0) I hr ?_ rfl rfl rfl rfl
    unfold owes; rw [hp]; dsimp only; split <;> omega
  | dropSend i r f hr hp hf =>
    refine wait_put (d := 1) I hr ?_ rfl rfl (by simp) rfl
    unfold owes; rw [hp]
  | idle i r hr hp =>
    refine wait_put (d := 0) I hr ?_ rfl rfl rfl rfl
    unfold owes; rw [hp]; dsimp only; omega
  | idlePhaseNew i r hr hp hne =>
    refine wait_put (d := 0) I hr ?_ rfl rfl rfl rfl
    unfold owes; rw [hp]; dsimp only; split <;> omega
  | idlePhaseOld i r hr hp he =>
    refine wait_put (d := 0) I hr ?_ rfl rfl rfl rfl
    unfold owes; rw [hp]; dsimp only; rw [if_neg (by simp [he])]
  | idleSend i r p f hr hp hf =>
    refine wait_put (d := 1) I hr ?_ rfl rfl (by simp) rfl
    unfold owes; rw [hp]
  | wake i r hr hp =>
    refine wait_put (d := 0) I hr ?_ rfl rfl rfl rfl
    unfold owes; rw [hp]
  | wakePhase i r hr hp =>
    refine wait_put (d := 0) I hr ?_ rfl rfl rfl rfl
    unfold owes; rw [hp]; dsimp only; omega
  | forget i r hr hp =>
    refine wait_put (d := 0) I hr ?_ rfl rfl rfl rfl
    unfold owes; rw [hp]; dsimp only; omega
  | bump => exact absurd rfl hl
  | recv t n k h rest m hrd hk hc ha =>
    refine ⟨I.1, fun t' n' k' hn => ?_⟩
    have := I.2 t n k hrd
    cases hn
    rw [hc, List.length_cons] at this
    dsimp only; omega
  | start | drain | drainEnd | count | timeout | waitEnd | finalRecv | finalEnd =>
    exact ⟨I.1, fun t n k hn => by cases hn⟩

theorem wait_bump {s s' : Sys H} (I : GapInv s) (P : ∀ r ∈ s.recs, PhaseOk s.phase r) (st : Step o s .bump s') :
    WaitInv s.recs.length s' := by
  cases st with
  | bump t n hrd =>
    refine ⟨le_refl _, fun t' n' k' hn => ?_⟩
    cases hn
    have h1 := I t n hrd
    have h2 : sumR due s.recs ≤ sumR (owes (s.phase + 1)) s.recs := by
      apply sumR_le
      intro r hr
      have := (P r hr).1
      unfold due owes
      cases hp : r.pc <;> dsimp only <;> try omega
      all_goals (rw [if_pos (by omega)])
    dsimp only
    rw [List.take_length]; omega

/-! ## Recorders that have answered -/

/-- recorder `i` is up to date, unless it has a call in progress -/
def Answered (i : Nat) (s : Sys H) : Prop :=
  ∀ r, s.recs[i]? = some r → (r.pc = .ready → r.lastPhase = s.phase) ∧ (∀ p, r.pc = .send p → p = s.phase)

theorem answered_put {i j : Nat} {s t : Sys H} {a : Rec H} (A : Answered i s) (h2 : t.recs = s.recs.set j a)
    (h4 : t.phase = s.phase)
    (h : i = j → (a.pc = .ready → a.lastPhase = s.phase) ∧ (∀ p, a.pc = .send p → p = s.phase)) : Answered i t := by
  intro r hr
  rw [h2, List.getElem?_set] at hr
  rw [h4]
  split at hr
  · split at hr
    · cases hr; subst_vars; exact h rfl
    · cases hr
  · exact A r hr

theorem answered_append {i : Nat} {s t : Sys H} {a : Rec H} (A : Answered i s) (hi : i < s.recs.length)
    (h2 : t.recs = s.recs ++ [a]) (h4 : t.phase = s.phase) : Answered i t := by
  intro r hr
  rw [h2, List.getElem?_append_left hi] at hr
  rw [h4]
  exact A r hr

theorem answered_step {i : Nat} {s s' : Sys H} {l : Label W} (A : Answered i s ∧ i < s.recs.length)
    (hl : NotForget s l ∧ l ≠ .bump) (st : Step o s l s') : Answered i s' ∧ i < s'.recs.length := by
  obtain ⟨A, hi⟩ := A
  cases st with
  | write j w r l hr hp hw =>
    refine ⟨answered_put A rfl rfl fun hij => ⟨fun h => ?_, fun p h => ?_⟩, by simpa [Sys.put] using hi⟩
    · subst hij; exact (A r hr).1 hp
    · dsimp only at h
      split at h
      · cases h; rfl
      · cases h
  | recorder f _ hrd hf => exact ⟨answered_append A hi rfl rfl, by simp; omega⟩
  | clone j r f hr _ hp hf => exact ⟨answered_append A hi rfl rfl, by simp; omega⟩
  | writeSend j r p f hr hp hf =>
    refine ⟨answered_put A rfl rfl fun hij => ⟨fun h => ?_, fun p h => by cases h⟩, by simpa [Sys.put] using hi⟩
    subst hij; exact (A r hr).2 p hp
  | wakePhase j r hr hp =>
    exact ⟨answered_put A rfl rfl fun hij => ⟨fun h => rfl, fun p h => by cases h⟩, by simpa [Sys.put] using hi⟩
  | drop | dropSend | idle | idlePhaseNew | idlePhaseOld | idleSend | wake =>
    exact ⟨answered_put A rfl rfl fun hij => ⟨fun h => (by cases h), fun p h => by cases h⟩, by simpa [Sys.put] using hi⟩
  | forget => exact absurd hl.1 id
  | bump => exact absurd rfl hl.2
  | start | drain | drainEnd | count | recv | timeout | waitEnd | finalRecv | finalEnd => exact ⟨A, hi⟩

/-- a write, or leaving, brings a recorder up to date -/
theorem answered_by {i : Nat} {s s' : Sys H} {l : Label W}
    (h : (∃ w, l = .write i w) ∨ l = .drop i ∨ l = .idle i) (st : Step o s l s') :
    Answered i s' ∧ i < s'.recs.length := by
  have lt : ∀ {r : Rec H} {a : Rec H}, s.recs[i]? = some r → i < (s.recs.set i a).length := by
    intro r a hr
    rw [List.length_set]
    exact (List.getElem?_eq_some_iff.mp hr).1
  rcases h with ⟨w, rfl⟩ | rfl | rfl
  · cases st with
    | write _ _ r l hr hp hw =>
      refine ⟨fun x hx => ?_, lt hr⟩
      simp only [Sys.put] at hx
      rw [List.getElem?_set_self (List.getElem?_eq_some_iff.mp hr).1] at hx
      cases hx
      dsimp only [Sys.put]
      split
      · exact ⟨fun h => (by cases h), fun p h => by cases h; rfl⟩
      · rename_i hc
        exact ⟨fun _ => (not_not.mp hc).symm, fun p h => by cases h⟩
  · cases st with
    | drop _ r hr hp hl h1 =>
      refine ⟨fun x hx => ?_, lt hr⟩
      simp only [Sys.put] at hx
      rw [List.getElem?_set_self (List.getElem?_eq_some_iff.mp hr).1] at hx
      cases hx
      exact ⟨fun h => (by cases h), fun p h => by cases h⟩
  · cases st with
    | idle _ r hr hp hl h1 =>
      refine ⟨fun x hx => ?_, lt hr⟩
      simp only [Sys.put] at hx
      rw [List.getElem?_set_self (List.getElem?_eq_some_iff.mp hr).1] at hx
      cases hx
      exact ⟨fun h => (by cases h), fun p h => by cases h⟩

/-! ## The reader alone -/

theorem Finishes.cons {s s' : Sys H} {l : Label W} (hl : l.reader = true) (e : step o s l = some (.ok s'))
    (h : Finishes o s') : Finishes o s := by
  obtain ⟨ls, h1, h2⟩ := h
  refine ⟨l :: ls, ?_, ?_⟩
  · intro x hx
    rcases List.mem_cons.mp hx with rfl | hx
    · exact hl
    · exact h1 x hx
  · simp only [exec, e]; exact h2

theorem Finishes.panic {s : Sys H} {l : Label W} {p : Panic} (hl : l.reader = true) (e : step o s l = some (.error p)) :
    Finishes o s := by
  refine ⟨[l], by simpa using hl, Or.inr ⟨p, ?_⟩⟩
  simp only [exec, e]

theorem final_finishes {s : Sys H} (h : s.reader = .final) : Finishes o s := by
  generalize hc : s.chan = c
  induction c generalizing s with
  | nil =>
    refine Finishes.cons (l := .finalEnd) (s' := { s with reader := .out }) rfl ?_ ⟨[], by simp, Or.inl ⟨_, rfl, rfl⟩⟩
    simp only [step, finalEnd, h, noMore, hc]; rfl
  | cons x xs ih =>
    cases hm : o.add s.merged x with
    | error p => exact Finishes.panic (l := .finalRecv) rfl (by simp only [step, finalRecv, h, receive, hc, hm]; rfl)
    | ok m =>
      exact Finishes.cons (l := .finalRecv) (s' := { s with merged := m, chan := xs, reader := .final }) rfl
        (by simp only [step, finalRecv, h, receive, hc, hm]; rfl) (ih rfl rfl)

theorem wait_finishes {s : Sys H} {t : Bool} {n k : Nat} (h : s.reader = .wait t n k) (hn : n ≤ k + s.chan.length) :
    Finishes o s := by
  generalize hc : s.chan = c
  induction c generalizing s k with
  | nil =>
    rw [hc] at hn
    refine Finishes.cons (l := .waitEnd) (s' := { s with reader := .final }) rfl ?_ (final_finishes rfl)
    simp only [step, waitEnd, h]
    rw [if_neg (by simp at hn; omega)]; rfl
  | cons x xs ih =>
    by_cases hk : k < n
    · cases hm : o.add s.merged x with
      | error p =>
        exact Finishes.panic (l := .recv) rfl (by simp only [step, recv, h, if_pos hk, receive, hc, hm]; rfl)
      | ok m =>
        rw [hc, List.length_cons] at hn
        exact Finishes.cons (l := .recv) (s' := { s with merged := m, chan := xs, reader := .wait t n (k + 1) }) rfl
          (by simp only [step, recv, h, if_pos hk, receive, hc, hm]; rfl) (ih rfl (by dsimp only; omega) rfl)
    · refine Finishes.cons (l := .waitEnd) (s' := { s with reader := .final }) rfl ?_ (final_finishes rfl)
      simp only [step, waitEnd, h]
      rw [if_neg hk]; rfl

end Hdr.Sync
