import Verif.Proofs.Sync

/-!
# The lock and the recorder count
-/

namespace Hdr.Sync

variable {H W : Type} {o : HistOps H W}

/-- the thread holds the lock -/
def Pc.holds : Pc → Bool
  | .dropSend | .idlePhase | .idleSend _ | .wakePhase => true
  | _ => false

/-- the recorder is included in the count -/
def Pc.counted : Pc → Bool
  | .ready | .send _ | .wakePhase => true
  | _ => false

/-- whoever is inside a critical section holds the lock -/
def LockInv (s : Sys H) : Prop := ∀ i r, s.recs[i]? = some r → r.pc.holds = true → s.lock = some i

theorem lock_put {s : Sys H} {i : Nat} {r a : Rec H} (I : LockInv s) (hr : s.recs[i]? = some r)
    (h : a.pc.holds = true → s.lock = some i) : LockInv (s.put i a) := by
  intro j x hx hh
  simp only [Sys.put] at hx
  rw [List.getElem?_set] at hx
  split at hx
  · split at hx
    · cases hx; subst_vars; exact h hh
    · cases hx
  · exact I j x hx hh

/-- replacing recorder `i` and setting the lock, when nobody else was in a critical section -/
theorem lock_set {s t : Sys H} {i : Nat} {a : Rec H}
    (hn : ∀ j x, j ≠ i → s.recs[j]? = some x → x.pc.holds = false)
    (ht : t.recs = s.recs.set i a) (h : a.pc.holds = true → t.lock = some i) : LockInv t := by
  intro j x hx hh
  rw [ht, List.getElem?_set] at hx
  split at hx
  · split at hx
    · cases hx; subst_vars; exact h hh
    · cases hx
  · rename_i hne
    rw [hn j x (fun hc => hne hc.symm) hx] at hh
    cases hh

theorem LockInv.none_of_lock {s : Sys H} (I : LockInv s) (h : s.lock = none) :
    ∀ (j : Nat) (x : Rec H), s.recs[j]? = some x → x.pc.holds = false := by
  intro j x hx
  by_contra hc
  have := I j x hx (by simpa using hc)
  rw [h] at this; cases this

theorem LockInv.others {s : Sys H} (I : LockInv s) {i : Nat} {r : Rec H} (hr : s.recs[i]? = some r)
    (hh : r.pc.holds = true) : ∀ j x, j ≠ i → s.recs[j]? = some x → x.pc.holds = false := by
  intro j x hne hx
  by_contra hc
  have h1 := I j x hx (by simpa using hc)
  have h2 := I i r hr hh
  rw [h1] at h2
  exact hne (Option.some.inj h2)

theorem lock_append {s t : Sys H} {a : Rec H} (I : LockInv s) (ht : t.recs = s.recs ++ [a]) (hl : t.lock = s.lock)
    (ha : a.pc.holds = false) : LockInv t := by
  intro j x hx hh
  rw [hl]
  rw [ht] at hx
  by_cases hj : j < s.recs.length
  · rw [List.getElem?_append_left hj] at hx
    exact I j x hx hh
  · rw [List.getElem?_append_right (by omega)] at hx
    have : x = a := by
      cases hk : j - s.recs.length with
      | zero => rw [hk] at hx; simpa using hx.symm
      | succ k => rw [hk] at hx; simp at hx
    subst this
    rw [ha] at hh; cases hh

theorem lock_step {s s' : Sys H} {l : Label W} (I : LockInv s) (st : Step o s l s') : LockInv s' := by
  cases st with
  | write i w r l hr hp hw =>
    refine lock_put I hr fun h => ?_
    dsimp only at h
    split at h <;> cases h
  | writeSend i r p f hr hp hf => exact lock_put I hr fun h => by cases h
  | recorder f hl hrd hf => exact lock_append I rfl rfl rfl
  | clone i r f hr hl hp hf => exact lock_append I rfl rfl rfl
  | drop i r hr hp hl h1 => exact lock_set (fun j x _ hx => I.none_of_lock hl j x hx) rfl fun _ => rfl
  | dropSend i r f hr hp hf =>
    exact lock_set (I.others hr (by rw [hp]; rfl)) rfl fun h => by cases h
  | idle i r hr hp hl h1 => exact lock_set (fun j x _ hx => I.none_of_lock hl j x hx) rfl fun _ => rfl
  | idlePhaseNew i r hr hp hne => exact lock_put I hr fun _ => I i r hr (by rw [hp]; rfl)
  | idlePhaseOld i r hr hp he =>
    exact lock_set (I.others hr (by rw [hp]; rfl)) rfl fun h => by cases h
  | idleSend i r p f hr hp hf =>
    exact lock_set (I.others hr (by rw [hp]; rfl)) rfl fun h => by cases h
  | wake i r hr hp hl => exact lock_set (fun j x _ hx => I.none_of_lock hl j x hx) rfl fun _ => rfl
  | wakePhase i r hr hp =>
    exact lock_set (I.others hr (by rw [hp]; rfl)) rfl fun h => by cases h
  | forget i r hr hp => exact lock_put I hr fun h => by cases h
  | start | drain | drainEnd | count | bump | recv | timeout | waitEnd | finalRecv | finalEnd => exact I

theorem lock_init {h : H} : LockInv (Sys.init h) := by
  intro i r hr; simp [Sys.init] at hr

/-- how many recorders are included in the count -/
def countOf (r : Rec H) : Nat := if r.pc.counted then 1 else 0

/-- the count is right, or too low by the number of leaked guards -/
theorem count_le_step {s s' : Sys H} {l : Label W} (I : s.recorders ≤ sumR countOf s.recs) (st : Step o s l s') :
    s'.recorders ≤ sumR countOf s'.recs := by
  cases st with
  | write i w r l hr hp hw =>
    have := sumR_set (f := countOf) (a := { r with loc := l, pc := if s.phase ≠ r.lastPhase then .send s.phase else .ready }) hr
    have h1 : countOf r = 1 := by simp [countOf, hp, Pc.counted]
    have h2 : countOf { r with loc := l, pc := if s.phase ≠ r.lastPhase then .send s.phase else .ready } = 1 := by
      unfold countOf; dsimp only; split <;> simp_all [Pc.counted]
    simp only [Sys.put] at *
    omega
  | recorder f hl hrd hf => simp only [sumR_append, countOf, Pc.counted] at *; simp; omega
  | clone i r f hr hl hp hf => simp only [sumR_append, countOf, Pc.counted] at *; simp; omega
  | writeSend i r p f hr hp hf =>
    have := sumR_set (f := countOf) (a := { loc := f, lastPhase := p, pc := .ready }) hr
    simp only [Sys.put, countOf, hp, Pc.counted] at *; simp at *; omega
  | drop i r hr hp hl h1 =>
    have := sumR_set (f := countOf) (a := { r with pc := .dropSend }) hr
    simp only [Sys.put, countOf, hp, Pc.counted] at *; simp at *; omega
  | dropSend i r f hr hp hf =>
    have := sumR_set (f := countOf) (a := { r with loc := f, pc := .gone }) hr
    simp only [Sys.put, countOf, hp, Pc.counted] at *; simp at *; omega
  | idle i r hr hp hl h1 =>
    have := sumR_set (f := countOf) (a := { r with pc := .idlePhase }) hr
    simp only [Sys.put, countOf, hp, Pc.counted] at *; simp at *; omega
  | idlePhaseNew i r hr hp hne =>
    have := sumR_set (f := countOf) (a := { r with pc := .idleSend s.phase }) hr
    simp only [Sys.put, countOf, hp, Pc.counted] at *; simp at *; omega
  | idlePhaseOld i r hr hp he =>
    have := sumR_set (f := countOf) (a := { r with lastPhase := s.phase, pc := .idle }) hr
    simp only [Sys.put, countOf, hp, Pc.counted] at *; simp at *; omega
  | idleSend i r p f hr hp hf =>
    have := sumR_set (f := countOf) (a := { loc := f, lastPhase := p, pc := .idle }) hr
    simp only [Sys.put, countOf, hp, Pc.counted] at *; simp at *; omega
  | wake i r hr hp hl =>
    have := sumR_set (f := countOf) (a := { r with pc := .wakePhase }) hr
    simp only [Sys.put, countOf, hp, Pc.counted] at *; simp at *; omega
  | wakePhase i r hr hp =>
    have := sumR_set (f := countOf) (a := { r with lastPhase := s.phase, pc := .ready }) hr
    simp only [Sys.put, countOf, hp, Pc.counted] at *; simp at *; omega
  | forget i r hr hp =>
    have := sumR_set (f := countOf) (a := { r with pc := .ready }) hr
    simp only [Sys.put, countOf, hp, Pc.counted] at *; simp at *; omega
  | start | drain | drainEnd | count | bump | recv | timeout | waitEnd | finalRecv | finalEnd => exact I

theorem count_ge_step {s s' : Sys H} {l : Label W} (I : sumR countOf s.recs ≤ s.recorders) (hl : NotForget s l)
    (st : Step o s l s') : sumR countOf s'.recs ≤ s'.recorders := by
  cases st with
  | write i w r l hr hp hw =>
    have := sumR_set (f := countOf) (a := { r with loc := l, pc := if s.phase ≠ r.lastPhase then .send s.phase else .ready }) hr
    have h1 : countOf r = 1 := by simp [countOf, hp, Pc.counted]
    have h2 : countOf { r with loc := l, pc := if s.phase ≠ r.lastPhase then .send s.phase else .ready } = 1 := by
      unfold countOf; dsimp only; split <;> simp_all [Pc.counted]
    simp only [Sys.put] at *
    omega
  | recorder f hl hrd hf => simp only [sumR_append, countOf, Pc.counted] at *; simp; omega
  | clone i r f hr hl hp hf => simp only [sumR_append, countOf, Pc.counted] at *; simp; omega
  | writeSend i r p f hr hp hf =>
    have := sumR_set (f := countOf) (a := { loc := f, lastPhase := p, pc := .ready }) hr
    simp only [Sys.put, countOf, hp, Pc.counted] at *; simp at *; omega
  | drop i r hr hp hl h1 =>
    have := sumR_set (f := countOf) (a := { r with pc := .dropSend }) hr
    simp only [Sys.put, countOf, hp, Pc.counted] at *; simp at *; omega
  | dropSend i r f hr hp hf =>
    have := sumR_set (f := countOf) (a := { r with loc := f, pc := .gone }) hr
    simp only [Sys.put, countOf, hp, Pc.counted] at *; simp at *; omega
  | idle i r hr hp hl h1 =>
    have := sumR_set (f := countOf) (a := { r with pc := .idlePhase }) hr
    simp only [Sys.put, countOf, hp, Pc.counted] at *; simp at *; omega
  | idlePhaseNew i r hr hp hne =>
    have := sumR_set (f := countOf) (a := { r with pc := .idleSend s.phase }) hr
    simp only [Sys.put, countOf, hp, Pc.counted] at *; simp at *; omega
  | idlePhaseOld i r hr hp he =>
    have := sumR_set (f := countOf) (a := { r with lastPhase := s.phase, pc := .idle }) hr
    simp only [Sys.put, countOf, hp, Pc.counted] at *; simp at *; omega
  | idleSend i r p f hr hp hf =>
    have := sumR_set (f := countOf) (a := { loc := f, lastPhase := p, pc := .idle }) hr
    simp only [Sys.put, countOf, hp, Pc.counted] at *; simp at *; omega
  | wake i r hr hp hl =>
    have := sumR_set (f := countOf) (a := { r with pc := .wakePhase }) hr
    simp only [Sys.put, countOf, hp, Pc.counted] at *; simp at *; omega
  | wakePhase i r hr hp =>
    have := sumR_set (f := countOf) (a := { r with lastPhase := s.phase, pc := .ready }) hr
    simp only [Sys.put, countOf, hp, Pc.counted] at *; simp at *; omega
  | forget i r hr hp => cases hl
  | start | drain | drainEnd | count | bump | recv | timeout | waitEnd | finalRecv | finalEnd => exact I

/-- in an execution without leaked guards the count is the number of recorders included in it -/
theorem count_exec {h : H} {ls : List (Label W)} {s : Sys H} (hP : Always o NotForget ls (Sys.init h))
    (e : exec o ls (Sys.init h) = some (.ok s)) : s.recorders = sumR countOf s.recs ∧ LockInv s := by
  have := exec_inv (I := fun s => s.recorders = sumR countOf s.recs ∧ LockInv s)
    (fun s l s' I hl st => ⟨Nat.le_antisymm (count_le_step I.1.le st) (count_ge_step I.1.ge hl st), lock_step I.2 st⟩)
    ⟨rfl, lock_init⟩ hP e
  exact this

end Hdr.Sync
