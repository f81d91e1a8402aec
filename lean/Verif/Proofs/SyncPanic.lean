import Verif.Spec.SyncPanic
import Verif.Proofs.SyncContent
import Verif.Proofs.SyncWait
import Verif.Proofs.SyncHist

/-!
# Proofs about caught panics in concurrent recording
-/

namespace Hdr.Sync

variable {H W : Type} {o : HistOps H W}

/-! ## The steps as a relation -/

/-- the step takes a histogram from the channel -/
def Label.receives : Label W → Bool
  | .drain | .recv | .finalRecv => true
  | _ => false

/-- the steps when panics are caught -/
inductive PStep (o : HistOps H W) (x : PSys H) : Label W → PSys H → Prop where
  | ok (l : Label W) (s : Sys H) : ¬ (x.poisoned = true ∧ l.locks = true) → step o x.sys l = some (.ok s) →
      PStep o x l { x with sys := s }
  | merge (l : Label W) (p : Panic) (h : H) (rest : List H) : l.receives = true → step o x.sys l = some (.error p) →
      x.sys.chan = h :: rest →
      PStep o x l { x with sys := { x.sys with chan := rest, reader := .out }, lost := x.lost ++ [h] }
  | drop (i : Nat) (r : Rec H) : x.sys.recs[i]? = some r → r.pc = .ready → x.sys.lock = none → x.sys.recorders = 0 →
      PStep o x (.drop i) { x with sys := x.sys.put i { r with pc := .gone }, poisoned := true }
  | idle (i : Nat) (r : Rec H) : x.sys.recs[i]? = some r → r.pc = .ready → x.sys.lock = none → x.sys.recorders = 0 →
      PStep o x (.idle i) { x with poisoned := true }
  | stay (l : Label W) : x.poisoned = true → l.locks = true → l ≠ .count → PStep o x l x
  | lateDrop (i : Nat) (r : Rec H) : x.poisoned = true → x.sys.lock = none → x.sys.recs[i]? = some r → r.pc = .ready →
      PStep o x (.drop i) { x with sys := x.sys.put i { r with pc := .gone } }
  | lateWake (i : Nat) (r : Rec H) : x.poisoned = true → x.sys.lock = none → x.sys.recs[i]? = some r → r.pc = .idle →
      PStep o x (.wake i) { x with sys := x.sys.put i { r with pc := .ready } }
  | lateCount (t : Bool) : x.poisoned = true → x.sys.reader = .count t →
      PStep o x .count { x with sys := { x.sys with reader := .out } }

theorem recAt_some {s : Sys H} {i : Nat} {pc : Pc} {r : Rec H} (e : s.recAt i pc = some r) :
    s.recs[i]? = some r ∧ r.pc = pc := by
  unfold Sys.recAt at e
  cases hr : s.recs[i]? with
  | none => rw [hr] at e; cases e
  | some r' =>
    rw [hr] at e
    dsimp only at e
    split at e
    · cases e; exact ⟨rfl, by assumption⟩
    · cases e

theorem subU_error {a : Nat} {p : Panic} (e : subU a 1 = .error p) : a = 0 := by
  unfold subU at e
  split at e
  · cases e
  · omega

theorem drop_error {s : Sys H} {i : Nat} {p : Panic} (e : drop s i = some (.error p)) :
    ∃ r, s.recs[i]? = some r ∧ r.pc = .ready ∧ s.lock = none ∧ s.recorders = 0 := by
  obtain ⟨r, hr, hp, e⟩ := at_some e
  dsimp only at e
  split at e
  · rename_i hl
    refine ⟨r, hr, hp, hl, ?_⟩
    cases h : subU s.recorders 1 with
    | error q => exact subU_error h
    | ok n => rw [h] at e; cases e
  · cases e

theorem idle_error {s : Sys H} {i : Nat} {p : Panic} (e : idle s i = some (.error p)) :
    ∃ r, s.recs[i]? = some r ∧ r.pc = .ready ∧ s.lock = none ∧ s.recorders = 0 := by
  obtain ⟨r, hr, hp, e⟩ := at_some e
  dsimp only at e
  split at e
  · rename_i hl
    refine ⟨r, hr, hp, hl, ?_⟩
    cases h : subU s.recorders 1 with
    | error q => exact subU_error h
    | ok n => rw [h] at e; cases e
  · cases e

theorem failed_step {x x' : PSys H} {l : Label W} {p : Panic} (hl : l.receives = true)
    (h : step o x.sys l = some (.error p)) (e : failedMerge x = some x') : PStep o x l x' := by
  unfold failedMerge at e
  cases hc : x.sys.chan with
  | nil => rw [hc] at e; cases e
  | cons a rest => rw [hc] at e; cases e; exact .merge l p a rest hl h hc

theorem pstep_rel {x x' : PSys H} {l : Label W} (e : pstep o x l = some x') : PStep o x l x' := by
  unfold pstep at e
  split at e
  · rename_i hp
    split at e
    · rename_i hlk
      cases l with
      | recorder =>
        simp only [onPoisoned] at e
        split at e
        · cases e; exact .stay _ hp.1 rfl (by simp)
        · cases e
      | clone i =>
        simp only [onPoisoned] at e
        split at e
        · split at e
          · cases e; exact .stay _ hp.1 rfl (by simp)
          · cases e
        · cases e
      | drop i =>
        simp only [onPoisoned, Option.map_eq_some_iff] at e
        obtain ⟨r, hr, rfl⟩ := e
        exact .lateDrop i r hp.1 hlk (recAt_some hr).1 (recAt_some hr).2
      | idle i =>
        simp only [onPoisoned, Option.map_eq_some_iff] at e
        obtain ⟨r, hr, rfl⟩ := e
        exact .stay _ hp.1 rfl (by simp)
      | wake i =>
        simp only [onPoisoned, Option.map_eq_some_iff] at e
        obtain ⟨r, hr, rfl⟩ := e
        exact .lateWake i r hp.1 hlk (recAt_some hr).1 (recAt_some hr).2
      | count =>
        simp only [onPoisoned] at e
        split at e
        · rename_i t hr
          cases e; exact .lateCount t hp.1 hr
        · cases e
      | _ => simp [onPoisoned] at e
    · cases e
  · rename_i hp
    split at e
    · cases e
    · rename_i s h
      cases e; exact .ok l s hp h
    · rename_i p h
      cases l with
      | drain => exact failed_step rfl h e
      | recv => exact failed_step rfl h e
      | finalRecv => exact failed_step rfl h e
      | drop i =>
        obtain ⟨r, hr, h1, h2, h3⟩ := drop_error h
        simp only [onPanic, hr, Option.map_some] at e
        cases e
        exact .drop i r hr h1 h2 h3
      | idle i =>
        obtain ⟨r, hr, h1, h2, h3⟩ := idle_error h
        simp only [onPanic, hr, Option.map_some] at e
        cases e
        exact .idle i r hr h1 h2 h3
      | _ => simp [onPanic] at e

theorem pexec_cons {l : Label W} {ls : List (Label W)} {x x' : PSys H} (e : pexec o (l :: ls) x = some x') :
    ∃ y, pstep o x l = some y ∧ pexec o ls y = some x' := by
  simp only [pexec] at e
  cases h : pstep o x l with
  | none => rw [h] at e; cases e
  | some y => rw [h] at e; exact ⟨y, rfl, e⟩

theorem pexec_append {l1 l2 : List (Label W)} {x x' : PSys H} (e : pexec o (l1 ++ l2) x = some x') :
    ∃ y, pexec o l1 x = some y ∧ pexec o l2 y = some x' := by
  induction l1 generalizing x with
  | nil => exact ⟨x, rfl, e⟩
  | cons l ls ih =>
    obtain ⟨y, e1, e2⟩ := pexec_cons e
    obtain ⟨z, e3, e4⟩ := ih e2
    exact ⟨z, by simp only [pexec, e1]; exact e3, e4⟩

theorem pexec_inv {P : Label W → Prop} {I : PSys H → Prop}
    (st : ∀ x l x', I x → P l → PStep o x l x' → I x') {ls : List (Label W)} {x x' : PSys H} (h : I x)
    (hP : ∀ l ∈ ls, P l) (e : pexec o ls x = some x') : I x' := by
  induction ls generalizing x with
  | nil => cases e; exact h
  | cons l ls ih =>
    obtain ⟨y, e1, e2⟩ := pexec_cons e
    exact ih (st x l y h (hP l (by simp)) (pstep_rel e1)) (fun l' h' => hP l' (by simp [h'])) e2

/-! ## Contents -/

/-- all contents, with those lost -/
def ptotal (μ : H → Nat) (x : PSys H) : Nat := total μ x.sys + (x.lost.map μ).sum

theorem ptotal_step {μ : H → Nat} {δ : W → Nat} (m : Measure o μ δ) {x x' : PSys H} {l : Label W} (st : PStep o x l x') :
    ptotal μ x' = ptotal μ x + labelSize δ l := by
  unfold ptotal
  cases st with
  | ok l s hp h =>
    have := total_step m (step_ok h)
    dsimp only; omega
  | merge l p h rest hl he hc =>
    have : labelSize δ l = 0 := by cases l <;> first | rfl | cases hl
    rw [this]
    simp only [total, hc, List.map_append, List.sum_append, List.map_cons, List.map_nil, List.sum_cons, List.sum_nil]
    omega
  | drop i r hr hp hl h0 =>
    have := sumR_set (f := fun r => μ r.loc) (a := { r with pc := .gone }) hr
    simp only [total, Sys.put, labelSize] at *; omega
  | idle i r hr hp hl h0 => rfl
  | stay l hp hl hc =>
    have : labelSize δ l = 0 := by cases l <;> first | rfl | cases hl
    rw [this]; rfl
  | lateDrop i r hp hl hr hpc =>
    have := sumR_set (f := fun r => μ r.loc) (a := { r with pc := .gone }) hr
    simp only [total, Sys.put, labelSize] at *; omega
  | lateWake i r hp hl hr hpc =>
    have := sumR_set (f := fun r => μ r.loc) (a := { r with pc := .ready }) hr
    simp only [total, Sys.put, labelSize] at *; omega
  | lateCount t hp hr => rfl

theorem ptotal_exec {μ : H → Nat} {δ : W → Nat} (m : Measure o μ δ) {ls : List (Label W)} {x x' : PSys H}
    (e : pexec o ls x = some x') : ptotal μ x' = ptotal μ x + (ls.map (labelSize δ)).sum := by
  induction ls generalizing x with
  | nil => cases e; simp
  | cons l ls ih =>
    obtain ⟨y, e1, e2⟩ := pexec_cons e
    have h1 := ih e2
    have h2 := ptotal_step m (pstep_rel e1)
    simp only [List.map_cons, List.sum_cons]
    omega

theorem pconserved [DecidableEq W] {h : H} {ls : List (Label W)} {x : PSys (H × List W)}
    (e : pexec o.traced ls (PSys.init (h, [])) = some x) (w : W) :
    x.sys.merged.2.count w + x.sys.chanWrites.count w + (x.sys.localWrites Pc.live).count w + x.lostWrites.count w
      = (writesOf ls).count w := by
  have h1 := ptotal_exec (traced_measure (o := o) w) e
  have h2 : (x.sys.localWrites Pc.live).count w + (x.sys.localWrites fun pc => !pc.live).count w
      = sumR (fun r => r.loc.2.count w) x.sys.recs := by
    rw [count_localWrites, count_localWrites]
    generalize x.sys.recs = l
    induction l with
    | nil => rfl
    | cons r l ih =>
      simp only [sumR, List.map_cons, List.sum_cons] at *
      cases r.pc.live <;> simp only [Bool.not_true, Bool.not_false, if_true, Bool.false_eq_true, if_false] <;> omega
  have h3 : (x.lost.flatMap Prod.snd).count w = (x.lost.map fun h => h.2.count w).sum := by
    rw [List.count_flatMap]; rfl
  unfold PSys.lostWrites
  rw [count_chanWrites, count_writesOf, List.count_append, h3]
  simp only [ptotal, PSys.init, total, Sys.init, sumR_nil, List.map_nil, List.sum_nil, List.count_nil, Nat.add_zero,
    Nat.zero_add] at h1
  omega

/-! ## The lists of writes do not matter -/

theorem erase_recAt {s : Sys (H × List W)} {i : Nat} {pc : Pc} :
    s.erase.recAt i pc = (s.recAt i pc).map Rec.erase := by
  unfold Sys.recAt
  rw [erase_get]
  cases s.recs[i]? with
  | none => rfl
  | some r =>
    simp only [Option.map_some]
    by_cases hp : r.pc = pc
    · rw [if_pos hp, if_pos (show r.erase.pc = pc from hp)]; rfl
    · rw [if_neg hp, if_neg (show ¬ r.erase.pc = pc from hp)]; rfl

theorem erase_failed {x : PSys (H × List W)} : failedMerge x.erase = (failedMerge x).map PSys.erase := by
  unfold failedMerge
  simp only [PSys.erase, Sys.erase]
  cases hc : x.sys.chan with
  | nil => rfl
  | cons h rest => simp [PSys.erase, Sys.erase]

theorem erase_poisoned {x : PSys (H × List W)} {l : Label W} :
    onPoisoned x.erase l = (onPoisoned x l).map PSys.erase := by
  cases l with
  | recorder =>
    simp only [onPoisoned]
    by_cases h : x.sys.reader = .out
    · rw [if_pos h, if_pos (show x.erase.sys.reader = .out from h)]; rfl
    · rw [if_neg h, if_neg (show ¬ x.erase.sys.reader = .out from h)]; rfl
  | clone i =>
    simp only [onPoisoned]
    rw [show x.erase.sys = x.sys.erase from rfl, erase_get]
    cases x.sys.recs[i]? with
    | none => rfl
    | some r =>
      simp only [Option.map_some]
      by_cases h : r.pc = .ready ∨ r.pc = .idle
      · rw [if_pos h, if_pos (show r.erase.pc = .ready ∨ r.erase.pc = .idle from h)]; rfl
      · rw [if_neg h, if_neg (show ¬ (r.erase.pc = .ready ∨ r.erase.pc = .idle) from h)]; rfl
  | drop i =>
    simp only [onPoisoned]
    rw [show x.erase.sys = x.sys.erase from rfl, erase_recAt]
    cases x.sys.recAt i .ready with
    | none => rfl
    | some r => simp [PSys.erase, Sys.erase, Sys.put, List.map_set, Rec.erase]
  | idle i =>
    simp only [onPoisoned]
    rw [show x.erase.sys = x.sys.erase from rfl, erase_recAt]
    cases x.sys.recAt i .ready <;> rfl
  | wake i =>
    simp only [onPoisoned]
    rw [show x.erase.sys = x.sys.erase from rfl, erase_recAt]
    cases x.sys.recAt i .idle with
    | none => rfl
    | some r => simp [PSys.erase, Sys.erase, Sys.put, List.map_set, Rec.erase]
  | count =>
    simp only [onPoisoned]
    have : x.erase.sys.reader = x.sys.reader := rfl
    rw [this]
    cases x.sys.reader <;> rfl
  | _ => rfl

theorem erase_panic {x : PSys (H × List W)} {l : Label W} : onPanic x.erase l = (onPanic x l).map PSys.erase := by
  cases l with
  | drain => exact erase_failed
  | recv => exact erase_failed
  | finalRecv => exact erase_failed
  | drop i =>
    simp only [onPanic]
    rw [show x.erase.sys = x.sys.erase from rfl, erase_get]
    cases x.sys.recs[i]? with
    | none => rfl
    | some r => simp [PSys.erase, Sys.erase, Sys.put, List.map_set, Rec.erase]
  | idle i =>
    simp only [onPanic]
    rw [show x.erase.sys = x.sys.erase from rfl, erase_get]
    cases x.sys.recs[i]? <;> rfl
  | _ => rfl

theorem erase_pstep {x : PSys (H × List W)} {l : Label W} :
    pstep o x.erase l = (pstep o.traced x l).map PSys.erase := by
  unfold pstep
  have h1 : x.erase.poisoned = x.poisoned := rfl
  have h2 : x.erase.sys = x.sys.erase := rfl
  rw [h1, h2, erase_step]
  by_cases hp : x.poisoned = true ∧ l.locks = true
  · rw [if_pos hp, if_pos hp]
    by_cases hl : x.sys.lock = none
    · rw [if_pos hl, if_pos (show x.sys.erase.lock = none from hl)]; exact erase_poisoned
    · rw [if_neg hl, if_neg (show ¬ x.sys.erase.lock = none from hl)]; rfl
  · rw [if_neg hp, if_neg hp]
    cases step o.traced x.sys l with
    | none => rfl
    | some y =>
      cases y with
      | error p => exact erase_panic
      | ok s => rfl

theorem erase_pexec {ls : List (Label W)} {x : PSys (H × List W)} :
    pexec o ls x.erase = (pexec o.traced ls x).map PSys.erase := by
  induction ls generalizing x with
  | nil => rfl
  | cons l ls ih =>
    simp only [pexec]
    rw [erase_pstep]
    cases pstep o.traced x l with
    | none => rfl
    | some y => exact ih

end Hdr.Sync
