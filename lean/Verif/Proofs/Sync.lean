import Verif.Spec.Sync
import Verif.Proofs.Layout
import Mathlib.Tactic.Cases

/-!
# Proofs about concurrent recording
-/

namespace Hdr.Sync

variable {H W : Type}

/-! ## The steps as a relation -/

/-- the successful steps -/
inductive Step (o : HistOps H W) (s : Sys H) : Label W → Sys H → Prop where
  | write (i : Nat) (w : W) (r : Rec H) (l : H) : s.recs[i]? = some r → r.pc = .ready → o.write w r.loc = .ok l →
      Step o s (.write i w)
        (s.put i { r with loc := l, pc := if s.phase ≠ r.lastPhase then .send s.phase else .ready })
  | writeSend (i : Nat) (r : Rec H) (p : Nat) (f : H) : s.recs[i]? = some r → r.pc = .send p → o.fresh r.loc = .ok f →
      Step o s (.writeSend i)
        { s.put i { loc := f, lastPhase := p, pc := .ready } with chan := s.chan ++ [r.loc] }
  | recorder (f : H) : s.lock = none → s.reader = .out → o.fresh s.merged = .ok f →
      Step o s .recorder { s with recorders := s.recorders + 1
                                  recs := s.recs ++ [{ loc := f, lastPhase := s.phase, pc := .ready }] }
  | clone (i : Nat) (r : Rec H) (f : H) : s.recs[i]? = some r → s.lock = none → (r.pc = .ready ∨ r.pc = .idle) →
      o.fresh r.loc = .ok f →
      Step o s (.clone i) { s with recorders := s.recorders + 1
                                   recs := s.recs ++ [{ loc := f, lastPhase := r.lastPhase, pc := .ready }] }
  | drop (i : Nat) (r : Rec H) : s.recs[i]? = some r → r.pc = .ready → s.lock = none → 1 ≤ s.recorders →
      Step o s (.drop i)
        { s.put i { r with pc := .dropSend } with recorders := s.recorders - 1, lock := some i }
  | dropSend (i : Nat) (r : Rec H) (f : H) : s.recs[i]? = some r → r.pc = .dropSend → o.fresh r.loc = .ok f →
      Step o s (.dropSend i)
        { s.put i { r with loc := f, pc := .gone } with chan := s.chan ++ [r.loc], lock := none }
  | idle (i : Nat) (r : Rec H) : s.recs[i]? = some r → r.pc = .ready → s.lock = none → 1 ≤ s.recorders →
      Step o s (.idle i)
        { s.put i { r with pc := .idlePhase } with recorders := s.recorders - 1, lock := some i }
  | idlePhaseNew (i : Nat) (r : Rec H) : s.recs[i]? = some r → r.pc = .idlePhase → s.phase ≠ r.lastPhase →
      Step o s (.idlePhase i) (s.put i { r with pc := .idleSend s.phase })
  | idlePhaseOld (i : Nat) (r : Rec H) : s.recs[i]? = some r → r.pc = .idlePhase → s.phase = r.lastPhase →
      Step o s (.idlePhase i) { s.put i { r with lastPhase := s.phase, pc := .idle } with lock := none }
  | idleSend (i : Nat) (r : Rec H) (p : Nat) (f : H) : s.recs[i]? = some r → r.pc = .idleSend p →
      o.fresh r.loc = .ok f →
      Step o s (.idleSend i)
        { s.put i { loc := f, lastPhase := p, pc := .idle } with chan := s.chan ++ [r.loc], lock := none }
  | wake (i : Nat) (r : Rec H) : s.recs[i]? = some r → r.pc = .idle → s.lock = none →
      Step o s (.wake i)
        { s.put i { r with pc := .wakePhase } with recorders := s.recorders + 1, lock := some i }
  | wakePhase (i : Nat) (r : Rec H) : s.recs[i]? = some r → r.pc = .wakePhase →
      Step o s (.wakePhase i) { s.put i { r with lastPhase := s.phase, pc := .ready } with lock := none }
  | forget (i : Nat) (r : Rec H) : s.recs[i]? = some r → r.pc = .idle →
      Step o s (.forget i) (s.put i { r with pc := .ready })
  | start (t : Bool) : s.reader = .out → Step o s (.start t) { s with reader := .drain t }
  | drain (t : Bool) (h : H) (rest : List H) (m : H) : s.reader = .drain t → s.chan = h :: rest →
      o.add s.merged h = .ok m → Step o s .drain { s with merged := m, chan := rest, reader := .drain t }
  | drainEnd (t : Bool) : s.reader = .drain t → s.chan = [] → Step o s .drainEnd { s with reader := .count t }
  | count (t : Bool) : s.reader = .count t → s.lock = none →
      Step o s .count { s with reader := .counted t s.recorders }
  | bump (t : Bool) (n : Nat) : s.reader = .counted t n →
      Step o s .bump { s with phase := s.phase + 1, reader := .wait t n 0 }
  | recv (t : Bool) (n k : Nat) (h : H) (rest : List H) (m : H) : s.reader = .wait t n k → k < n → s.chan = h :: rest →
      o.add s.merged h = .ok m → Step o s .recv { s with merged := m, chan := rest, reader := .wait t n (k + 1) }
  | timeout (n k : Nat) : s.reader = .wait true n k → k < n → Step o s .timeout { s with reader := .final }
  | waitEnd (t : Bool) (n k : Nat) : s.reader = .wait t n k → ¬ k < n → Step o s .waitEnd { s with reader := .final }
  | finalRecv (h : H) (rest : List H) (m : H) : s.reader = .final → s.chan = h :: rest →
      o.add s.merged h = .ok m → Step o s .finalRecv { s with merged := m, chan := rest, reader := .final }
  | finalEnd : s.reader = .final → s.chan = [] → Step o s .finalEnd { s with reader := .out }

theorem at_some {s : Sys H} {i : Nat} {pc : Pc} {k : Rec H → Option (M (Sys H))} {x : M (Sys H)}
    (e : s.at i pc k = some x) : ∃ r, s.recs[i]? = some r ∧ r.pc = pc ∧ k r = some x := by
  unfold Sys.at at e
  split at e
  · rename_i r hr
    split at e
    · exact ⟨r, hr, by assumption, e⟩
    · cases e
  · cases e

theorem receive_ok {o : HistOps H W} {s s' : Sys H} {next : Reader} (e : receive o s next = some (.ok s')) :
    ∃ h rest m, s.chan = h :: rest ∧ o.add s.merged h = .ok m ∧
      s' = { s with merged := m, chan := rest, reader := next } := by
  unfold receive at e
  split at e
  · rename_i h rest hc
    rw [Option.some.injEq, M.bind_eq_ok] at e
    obtain ⟨m, e1, e2⟩ := e
    cases e2
    exact ⟨h, rest, m, hc, e1, rfl⟩
  · cases e

theorem noMore_ok {s s' : Sys H} {next : Reader} (e : noMore s next = some (.ok s')) :
    s.chan = [] ∧ s' = { s with reader := next } := by
  unfold noMore at e
  split at e
  · cases e; exact ⟨by assumption, rfl⟩
  · cases e

theorem subU_one {a n : Nat} (e : subU a 1 = .ok n) : 1 ≤ a ∧ n = a - 1 := by
  unfold subU at e
  split at e
  · cases e; exact ⟨by assumption, rfl⟩
  · cases e

theorem step_ok {o : HistOps H W} {s s' : Sys H} {l : Label W} (e : step o s l = some (.ok s')) : Step o s l s' := by
  cases l with
  | write i w =>
    obtain ⟨r, hr, hp, e⟩ := at_some e
    rw [Option.some.injEq, M.bind_eq_ok] at e
    obtain ⟨l, e1, e2⟩ := e
    cases e2
    exact .write i w r l hr hp e1
  | writeSend i =>
    simp only [step, writeSend] at e
    split at e
    · split at e
      · rw [Option.some.injEq, M.bind_eq_ok] at e
        obtain ⟨f, e1, e2⟩ := e
        cases e2
        exact .writeSend i _ _ f (by assumption) (by assumption) e1
      · cases e
    · cases e
  | recorder =>
    simp only [step, recorder] at e
    split at e
    · rename_i hc
      rw [Option.some.injEq, M.bind_eq_ok] at e
      obtain ⟨f, e1, e2⟩ := e
      cases e2
      exact .recorder f hc.1 hc.2 e1
    · cases e
  | clone i =>
    simp only [step, clone] at e
    split at e
    · split at e
      · rename_i hc
        rw [Option.some.injEq, M.bind_eq_ok] at e
        obtain ⟨f, e1, e2⟩ := e
        cases e2
        exact .clone i _ f (by assumption) hc.1 hc.2 e1
      · cases e
    · cases e
  | drop i =>
    obtain ⟨r, hr, hp, e⟩ := at_some e
    dsimp only at e
    split at e
    · rw [Option.some.injEq, M.bind_eq_ok] at e
      obtain ⟨n, e1, e2⟩ := e
      obtain ⟨h1, rfl⟩ := subU_one e1
      cases e2
      exact .drop i r hr hp (by assumption) h1
    · cases e
  | dropSend i =>
    obtain ⟨r, hr, hp, e⟩ := at_some e
    rw [Option.some.injEq, M.bind_eq_ok] at e
    obtain ⟨f, e1, e2⟩ := e
    cases e2
    exact .dropSend i r f hr hp e1
  | idle i =>
    obtain ⟨r, hr, hp, e⟩ := at_some e
    dsimp only at e
    split at e
    · rw [Option.some.injEq, M.bind_eq_ok] at e
      obtain ⟨n, e1, e2⟩ := e
      obtain ⟨h1, rfl⟩ := subU_one e1
      cases e2
      exact .idle i r hr hp (by assumption) h1
    · cases e
  | idlePhase i =>
    obtain ⟨r, hr, hp, e⟩ := at_some e
    dsimp only at e
    split at e
    · cases e; exact .idlePhaseNew i r hr hp (by assumption)
    · rename_i hc
      cases e; exact .idlePhaseOld i r hr hp (not_not.mp hc)
  | idleSend i =>
    simp only [step, idleSend] at e
    split at e
    · split at e
      · rw [Option.some.injEq, M.bind_eq_ok] at e
        obtain ⟨f, e1, e2⟩ := e
        cases e2
        exact .idleSend i _ _ f (by assumption) (by assumption) e1
      · cases e
    · cases e
  | wake i =>
    obtain ⟨r, hr, hp, e⟩ := at_some e
    dsimp only at e
    split at e
    · cases e; exact .wake i r hr hp (by assumption)
    · cases e
  | wakePhase i =>
    obtain ⟨r, hr, hp, e⟩ := at_some e
    cases e
    exact .wakePhase i r hr hp
  | forget i =>
    obtain ⟨r, hr, hp, e⟩ := at_some e
    cases e
    exact .forget i r hr hp
  | start t =>
    simp only [step, start] at e
    split at e
    · cases e; exact .start t (by assumption)
    · cases e
  | drain =>
    simp only [step, drain] at e
    split at e
    · obtain ⟨h, rest, m, h1, h2, rfl⟩ := receive_ok e
      exact .drain _ h rest m (by assumption) h1 h2
    · cases e
  | drainEnd =>
    simp only [step, drainEnd] at e
    split at e
    · obtain ⟨h1, rfl⟩ := noMore_ok e
      exact .drainEnd _ (by assumption) h1
    · cases e
  | count =>
    simp only [step, count] at e
    split at e
    · split at e
      · cases e; exact .count _ (by assumption) (by assumption)
      · cases e
    · cases e
  | bump =>
    simp only [step, bump] at e
    split at e
    · cases e; exact .bump _ _ (by assumption)
    · cases e
  | recv =>
    simp only [step, recv] at e
    split at e
    · split at e
      · obtain ⟨h, rest, m, h1, h2, rfl⟩ := receive_ok e
        exact .recv _ _ _ h rest m (by assumption) (by assumption) h1 h2
      · cases e
    · cases e
  | timeout =>
    simp only [step, timeout] at e
    split at e
    · split at e
      · cases e; exact .timeout _ _ (by assumption) (by assumption)
      · cases e
    · cases e
  | waitEnd =>
    simp only [step, waitEnd] at e
    split at e
    · split at e
      · cases e
      · cases e; exact .waitEnd _ _ _ (by assumption) (by assumption)
    · cases e
  | finalRecv =>
    simp only [step, finalRecv] at e
    split at e
    · obtain ⟨h, rest, m, h1, h2, rfl⟩ := receive_ok e
      exact .finalRecv h rest m (by assumption) h1 h2
    · cases e
  | finalEnd =>
    simp only [step, finalEnd] at e
    split at e
    · obtain ⟨h1, rfl⟩ := noMore_ok e
      exact .finalEnd (by assumption) h1
    · cases e

/-! ## Executions -/

theorem exec_cons {o : HistOps H W} {l : Label W} {ls : List (Label W)} {s s' : Sys H}
    (e : exec o (l :: ls) s = some (.ok s')) : ∃ t, step o s l = some (.ok t) ∧ exec o ls t = some (.ok s') := by
  simp only [exec] at e
  split at e
  · cases e
  · cases e
  · exact ⟨_, by assumption, e⟩

theorem exec_append {o : HistOps H W} {l1 l2 : List (Label W)} {s s' : Sys H}
    (e : exec o (l1 ++ l2) s = some (.ok s')) : ∃ t, exec o l1 s = some (.ok t) ∧ exec o l2 t = some (.ok s') := by
  induction l1 generalizing s with
  | nil => exact ⟨s, rfl, e⟩
  | cons l ls ih =>
    obtain ⟨t, e1, e2⟩ := exec_cons e
    obtain ⟨u, e3, e4⟩ := ih e2
    refine ⟨u, ?_, e4⟩
    simp only [exec, e1]
    exact e3

theorem exec_trans {o : HistOps H W} {l1 l2 : List (Label W)} {s t : Sys H} {x : Option (M (Sys H))}
    (e1 : exec o l1 s = some (.ok t)) (e2 : exec o l2 t = x) : exec o (l1 ++ l2) s = x := by
  induction l1 generalizing s with
  | nil => cases e1; exact e2
  | cons l ls ih =>
    obtain ⟨u, e3, e4⟩ := exec_cons e1
    simp only [List.cons_append, exec, e3]
    exact ih e4

/-- invariants, under a condition on the steps -/
theorem exec_inv {o : HistOps H W} {P : Sys H → Label W → Prop} {I : Sys H → Prop}
    (hI : ∀ s l s', I s → P s l → Step o s l s' → I s') {ls : List (Label W)} {s s' : Sys H}
    (hs : I s) (hP : Always o P ls s) (e : exec o ls s = some (.ok s')) : I s' := by
  induction ls generalizing s with
  | nil => cases e; exact hs
  | cons l ls ih =>
    obtain ⟨t, e1, e2⟩ := exec_cons e
    exact ih (hI _ _ _ hs hP.1 (step_ok e1)) (hP.2 t e1) e2

theorem always_true {o : HistOps H W} {ls : List (Label W)} {s : Sys H} : Always o (fun _ _ => True) ls s := by
  induction ls generalizing s with
  | nil => trivial
  | cons l ls ih => exact ⟨trivial, fun s' _ => ih⟩

theorem always_append {o : HistOps H W} {P : Sys H → Label W → Prop} {l1 l2 : List (Label W)} {s t : Sys H}
    (h : Always o P (l1 ++ l2) s) (e : exec o l1 s = some (.ok t)) : Always o P l1 s ∧ Always o P l2 t := by
  induction l1 generalizing s with
  | nil => cases e; exact ⟨trivial, h⟩
  | cons l ls ih =>
    obtain ⟨u, e1, e2⟩ := exec_cons e
    refine ⟨⟨h.1, fun s' hs => ?_⟩, (ih (h.2 u e1) e2).2⟩
    rw [e1] at hs
    cases hs
    exact (ih (h.2 u e1) e2).1

/-! ## Sums over the recorders -/

/-- a sum over a list of recorders -/
def sumR (f : Rec H → Nat) (l : List (Rec H)) : Nat := (l.map f).sum

theorem sumR_nil {f : Rec H → Nat} : sumR f [] = 0 := rfl

theorem sumR_append {f : Rec H → Nat} {l : List (Rec H)} {r : Rec H} : sumR f (l ++ [r]) = sumR f l + f r := by
  simp [sumR]

theorem sumR_set {f : Rec H → Nat} {l : List (Rec H)} {i : Nat} {r a : Rec H} (h : l[i]? = some r) :
    sumR f (l.set i a) + f r = sumR f l + f a := by
  induction l generalizing i with
  | nil => simp at h
  | cons x xs ih =>
    cases i with
    | zero =>
      simp only [List.getElem?_cons_zero, Option.some.injEq] at h
      subst h
      simp only [sumR, List.set_cons_zero, List.map_cons, List.sum_cons]
      omega
    | succ i =>
      have := ih (i := i) (by simpa using h)
      simp only [sumR, List.set_cons_succ, List.map_cons, List.sum_cons] at *
      omega

theorem sumR_congr {f g : Rec H → Nat} {l : List (Rec H)} (h : ∀ r ∈ l, f r = g r) : sumR f l = sumR g l := by
  unfold sumR
  rw [List.map_congr_left h]

theorem sumR_le {f g : Rec H → Nat} {l : List (Rec H)} (h : ∀ r ∈ l, f r ≤ g r) : sumR f l ≤ sumR g l := by
  induction l with
  | nil => simp [sumR]
  | cons x xs ih =>
    have h1 := h x (by simp)
    have h2 := ih fun r hr => h r (by simp [hr])
    simp only [sumR, List.map_cons, List.sum_cons] at *
    omega

theorem sumR_le_of_mem {f : Rec H → Nat} {l : List (Rec H)} {r : Rec H} (h : r ∈ l) : f r ≤ sumR f l := by
  induction l with
  | nil => simp at h
  | cons x xs ih =>
    simp only [sumR, List.map_cons, List.sum_cons] at *
    rcases List.mem_cons.mp h with rfl | h
    · omega
    · have := ih h; omega

theorem sumR_eq_of_le {f g : Rec H → Nat} {l : List (Rec H)} (h : ∀ r ∈ l, f r ≤ g r) (e : sumR g l ≤ sumR f l) :
    ∀ r ∈ l, f r = g r := by
  induction l with
  | nil => simp
  | cons x xs ih =>
    have h1 := h x (by simp)
    have h2 := sumR_le (l := xs) fun r hr => h r (by simp [hr])
    simp only [sumR, List.map_cons, List.sum_cons] at *
    intro r hr
    rcases List.mem_cons.mp hr with rfl | hr
    · omega
    · exact ih (fun r hr => h r (by simp [hr])) (by omega) r hr

theorem mem_of_get {l : List (Rec H)} {i : Nat} {r : Rec H} (h : l[i]? = some r) : r ∈ l := List.mem_of_getElem? h

/-- a property of all recorders, after one is replaced -/
theorem all_set {P : Rec H → Prop} {l : List (Rec H)} {i : Nat} {a : Rec H} (h : ∀ r ∈ l, P r) (ha : P a) :
    ∀ r ∈ l.set i a, P r := by
  intro r hr
  rcases List.mem_or_eq_of_mem_set hr with hr | rfl
  · exact h r hr
  · exact ha

theorem all_append {P : Rec H → Prop} {l : List (Rec H)} {a : Rec H} (h : ∀ r ∈ l, P r) (ha : P a) :
    ∀ r ∈ l ++ [a], P r := by
  intro r hr
  rcases List.mem_append.mp hr with hr | hr
  · exact h r hr
  · simp at hr; subst hr; exact ha

theorem length_filter_eq_sumR {p : Rec H → Bool} {l : List (Rec H)} :
    (l.filter p).length = sumR (fun r => if p r then 1 else 0) l := by
  induction l with
  | nil => rfl
  | cons x xs ih =>
    have : sumR (fun r => if p r then 1 else 0) (x :: xs) = (if p x then 1 else 0) + sumR (fun r => if p r then 1 else 0) xs := by
      simp [sumR]
    rw [List.filter_cons, this, ← ih]
    split <;> (simp; try omega)

end Hdr.Sync
