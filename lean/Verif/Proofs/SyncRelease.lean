import Verif.Model.SyncRelease
import Verif.Proofs.Release
import Verif.Proofs.SyncCount

/-!
# Proofs about concurrent recording in a release build
-/

namespace Hdr.Release.Sync

open Hdr.Sync

variable {H W : Type} {o o' : HistOps H W}

/-! ## Where the debug build does not panic -/

/-- the release build does the same unless the debug build panics -/
def Same {α : Type} (a b : Option (M α)) : Prop := (∀ p, a ≠ some (.error p)) → b = a

theorem Same.refl {α : Type} (a : Option (M α)) : Same a a := fun _ => rfl

theorem Same.some {α : Type} {a b : M α} (h : Agrees a b) : Same (some a) (some b) := by
  intro hp
  cases a with
  | ok x => rw [h.out x rfl]
  | error p => exact absurd rfl (hp p)

/-- the histograms of `o'` do the same as those of `o` unless those panic -/
structure OpsAgree (o o' : HistOps H W) : Prop where
  fresh : ∀ h, Agrees (o.fresh h) (o'.fresh h)
  add : ∀ m h, Agrees (o.add m h) (o'.add m h)
  write : ∀ w h, Agrees (o.write w h) (o'.write w h)

theorem concrete_agree (fp : Fp) (T : CounterTy) : OpsAgree (HistOps.concrete fp T) (concrete fp T) where
  fresh h := Hist.newFrom_le fp T h
  add m h := by
    show Agrees (Hdr.Sync.addExpect m h) (addExpect m h)
    unfold Hdr.Sync.addExpect addExpect
    refine Agrees.bind (Hist.add_le m h) fun x => ?_
    exact Agrees.rfl
  write w h := by
    show Agrees (w.run h) (run w h)
    cases w with
    | add g => exact Agrees.bind (Hist.add_le h g) fun _ => Agrees.rfl
    | addCorrect g i => exact Agrees.bind (Hist.addCorrect_le h g i) fun _ => Agrees.rfl
    | subtract g => exact Agrees.bind (Hist.subtract_le h g) fun _ => Agrees.rfl
    | recordN v c => exact Agrees.bind (Hist.recordN_le h v c) fun _ => Agrees.rfl
    | saturatingRecordN v c => exact Hist.saturatingRecordN_le h v c
    | recordNCorrect v c i => exact Agrees.bind (Hist.recordNCorrect_le h v c i) fun _ => Agrees.rfl

theorem at_same {s : Sys H} {i : Nat} {pc : Pc} {k k' : Rec H → Option (M (Sys H))} (h : ∀ r, Same (k r) (k' r)) :
    Same (s.at i pc k) (s.at i pc k') := by
  unfold Sys.at
  split
  · split
    · exact h _
    · exact Same.refl _
  · exact Same.refl _

theorem receive_same (A : OpsAgree o o') (s : Sys H) (next : Reader) : Same (receive o s next) (receive o' s next) := by
  unfold receive
  split
  · exact Same.some (Agrees.bind (A.add _ _) fun _ => Agrees.rfl)
  · exact Same.refl _

theorem addU64_one {n : Nat} (h : n + 1 < 2 ^ 64) : addU64 n 1 = .ok (n + 1) := by
  unfold addU64; rw [Nat.mod_eq_of_lt h]

theorem step_same (A : OpsAgree o o') (s : Sys H) (l : Label W) (hr : s.recorders + 1 < 2 ^ 64) :
    Same (Hdr.Sync.step o s l) (step o' s l) := by
  cases l with
  | write i w => exact at_same fun r => Same.some (Agrees.bind (A.write _ _) fun _ => Agrees.rfl)
  | writeSend i =>
    simp only [step, Hdr.Sync.step, writeSend]
    split
    · split
      · exact Same.some (Agrees.bind (A.fresh _) fun _ => Agrees.rfl)
      · exact Same.refl _
    · exact Same.refl _
  | recorder =>
    simp only [step, Hdr.Sync.step, Hdr.Sync.recorder, recorder, addU64_one hr, M.ok_bind]
    split
    · exact Same.some (Agrees.bind (A.fresh _) fun _ => Agrees.rfl)
    · exact Same.refl _
  | clone i =>
    simp only [step, Hdr.Sync.step, Hdr.Sync.clone, clone, addU64_one hr, M.ok_bind]
    cases s.recs[i]? with
    | none => exact Same.refl _
    | some r =>
      dsimp only
      split
      · exact Same.some (Agrees.bind (A.fresh _) fun _ => Agrees.rfl)
      · exact Same.refl _
  | drop i =>
    refine at_same fun r => ?_
    dsimp only
    split
    · exact Same.some (Agrees.bind (subU64_le _ _) fun _ => Agrees.rfl)
    · exact Same.refl _
  | dropSend i => exact at_same fun r => Same.some (Agrees.bind (A.fresh _) fun _ => Agrees.rfl)
  | idle i =>
    refine at_same fun r => ?_
    dsimp only
    split
    · exact Same.some (Agrees.bind (subU64_le _ _) fun _ => Agrees.rfl)
    · exact Same.refl _
  | idleSend i =>
    simp only [step, Hdr.Sync.step, idleSend]
    split
    · split
      · exact Same.some (Agrees.bind (A.fresh _) fun _ => Agrees.rfl)
      · exact Same.refl _
    · exact Same.refl _
  | wake i =>
    refine at_same fun r => ?_
    simp only [addU64_one hr, M.ok_bind]
    exact Same.refl _
  | drain =>
    simp only [step, Hdr.Sync.step, drain]
    split
    · exact receive_same A _ _
    · exact Same.refl _
  | recv =>
    simp only [step, Hdr.Sync.step, recv]
    split
    · split
      · exact receive_same A _ _
      · exact Same.refl _
    · exact Same.refl _
  | finalRecv =>
    simp only [step, Hdr.Sync.step, finalRecv]
    split
    · exact receive_same A _ _
    · exact Same.refl _
  | idlePhase | wakePhase | forget | start | drainEnd | count | bump | timeout | waitEnd | finalEnd =>
    exact Same.refl _

theorem recorders_step {s s' : Sys H} {l : Label W} (st : Step o s l s') : s'.recorders ≤ s.recorders + 1 := by
  cases st <;> simp only [Sys.put] <;> omega

theorem exec_same (A : OpsAgree o o') (ls : List (Label W)) (s : Sys H) (hr : s.recorders + ls.length < 2 ^ 64) :
    Same (Hdr.Sync.exec o ls s) (exec o' ls s) := by
  induction ls generalizing s with
  | nil => exact Same.refl _
  | cons l ls ih =>
    intro hp
    rw [List.length_cons] at hr
    have hs : ∀ p, Hdr.Sync.step o s l ≠ some (.error p) := by
      intro p e
      exact hp p (by simp only [Hdr.Sync.exec, e])
    have e := step_same A s l (by omega) hs
    cases h : Hdr.Sync.step o s l with
    | none => simp only [Hdr.Sync.exec, exec, e, h]
    | some x =>
      cases x with
      | error p => exact absurd h (hs p)
      | ok t =>
        have := recorders_step (step_ok h)
        have := ih t (by omega) (fun p e' => hp p (by simp only [Hdr.Sync.exec, h, e']))
        simp only [Hdr.Sync.exec, exec, e, h, this]

/-! ## The steps of the release build -/

/-- the steps that change the count -/
def counts : Label W → Bool
  | .recorder | .clone _ | .drop _ | .idle _ | .wake _ => true
  | _ => false

/-- the same with the count written as a number that can be decremented -/
def lift (s : Sys H) : Sys H := { s with recorders := s.recorders + 2 ^ 64 }

theorem wrapSub_one {n : Nat} (h : n < 2 ^ 64) : wrapSub 64 n 1 = (n + 2 ^ 64 - 1) % 2 ^ 64 := by
  unfold wrapSub
  split
  · rw [show n + 2 ^ 64 - 1 = (n - 1) + 2 ^ 64 by omega, Nat.add_mod_right, Nat.mod_eq_of_lt (by omega)]
  · rw [Nat.mod_eq_of_lt (by omega)]

/-- a release step that changes the count, and one that does not -/
theorem step_ok_cases {s s' : Sys H} {l : Label W} (hs : s.recorders < 2 ^ 64) (e : step o s l = some (.ok s')) :
    (counts l = false ∧ Step o s l s') ∨
      (counts l = true ∧ ∃ t, Step o (lift s) l t ∧ s' = { t with recorders := t.recorders % 2 ^ 64 }) := by
  have hadd : ∀ n, (n + 2 ^ 64 + 1) % 2 ^ 64 = (n + 1) % 2 ^ 64 := by
    intro n; rw [show n + 2 ^ 64 + 1 = n + 1 + 2 ^ 64 by omega, Nat.add_mod_right]
  cases l with
  | recorder =>
    refine Or.inr ⟨rfl, ?_⟩
    simp only [step, recorder, addU64, M.ok_bind] at e
    split at e
    · rename_i hc
      rw [Option.some.injEq, M.bind_eq_ok] at e
      obtain ⟨f, e1, e2⟩ := e
      cases e2
      exact ⟨_, .recorder (s := lift s) f hc.1 hc.2 e1, by simp only [lift, hadd]⟩
    · cases e
  | clone i =>
    refine Or.inr ⟨rfl, ?_⟩
    simp only [step, clone, addU64, M.ok_bind] at e
    split at e
    · split at e
      · rename_i hc
        rw [Option.some.injEq, M.bind_eq_ok] at e
        obtain ⟨f, e1, e2⟩ := e
        cases e2
        exact ⟨_, .clone (s := lift s) i _ f (by assumption) hc.1 hc.2 e1, by simp only [lift, hadd]⟩
      · cases e
    · cases e
  | drop i =>
    refine Or.inr ⟨rfl, ?_⟩
    obtain ⟨r, hr, hp, e⟩ := at_some e
    dsimp only at e
    split at e
    · cases e
      exact ⟨_, .drop (s := lift s) i r hr hp (by assumption) (by simp only [lift]; omega),
        by simp only [lift, Sys.put, wrapSub_one hs]⟩
    · cases e
  | idle i =>
    refine Or.inr ⟨rfl, ?_⟩
    obtain ⟨r, hr, hp, e⟩ := at_some e
    dsimp only at e
    split at e
    · cases e
      exact ⟨_, .idle (s := lift s) i r hr hp (by assumption) (by simp only [lift]; omega),
        by simp only [lift, Sys.put, wrapSub_one hs]⟩
    · cases e
  | wake i =>
    refine Or.inr ⟨rfl, ?_⟩
    obtain ⟨r, hr, hp, e⟩ := at_some e
    dsimp only at e
    split at e
    · cases e
      exact ⟨_, .wake (s := lift s) i r hr hp (by assumption), by simp only [lift, Sys.put, hadd]⟩
    · cases e
  | _ => exact Or.inl ⟨rfl, step_ok e⟩

theorem exec_cons {ls : List (Label W)} {l : Label W} {s s' : Sys H} (e : exec o (l :: ls) s = some (.ok s')) :
    ∃ t, step o s l = some (.ok t) ∧ exec o ls t = some (.ok s') := by
  simp only [exec] at e
  split at e
  · cases e
  · cases e
  · exact ⟨_, by assumption, e⟩

end Hdr.Release.Sync
