import Verif.Proofs.SyncExt
import Verif.Proofs.SyncFresh
import Verif.Proofs.SyncWait

/-!
# Undisturbed refreshes and waiting, when loads of the phase may be outdated
-/

namespace Hdr.Sync

variable {H W : Type} {o : OwnerOps H W}

/-- invariants, under a condition on the steps -/
theorem xexec_always {P : XSys H → XLabel W → Prop} {I : XSys H → Prop}
    (hI : ∀ s l s', I s → P s l → XStep o s l s' → I s') {ls : List (XLabel W)} {s s' : XSys H}
    (hs : I s) (hP : XAlways o P ls s) (e : xexec o ls s = some (.ok s')) : I s' := by
  induction ls generalizing s with
  | nil => cases e; exact hs
  | cons l ls ih =>
    obtain ⟨t, e1, e2⟩ := xexec_cons e
    exact ih (hI _ _ _ hs hP.1 (xstep_ok e1)) (hP.2 t e1) e2

theorem xalways_append {P : XSys H → XLabel W → Prop} {l1 l2 : List (XLabel W)} {s t : XSys H}
    (h : XAlways o P (l1 ++ l2) s) (e : xexec o l1 s = some (.ok t)) : XAlways o P l1 s ∧ XAlways o P l2 t := by
  induction l1 generalizing s with
  | nil => cases e; exact ⟨trivial, h⟩
  | cons l ls ih =>
    obtain ⟨u, e1, e2⟩ := xexec_cons e
    refine ⟨⟨h.1, fun x' hx => ?_⟩, (ih (h.2 u e1) e2).2⟩
    rw [e1] at hx; cases hx
    exact (ih (h.2 u e1) e2).1

theorem xalways_and {P Q : XSys H → XLabel W → Prop} {ls : List (XLabel W)} {s : XSys H}
    (h1 : XAlways o P ls s) (h2 : XAlways o Q ls s) : XAlways o (fun s l => P s l ∧ Q s l) ls s := by
  induction ls generalizing s with
  | nil => trivial
  | cons l ls ih => exact ⟨⟨h1.1, h2.1⟩, fun x hx => ih (h1.2 x hx) (h2.2 x hx)⟩

theorem xalways_of_mem {P : XSys H → XLabel W → Prop} {ls : List (XLabel W)} {s : XSys H}
    (h : ∀ l ∈ ls, ∀ s, P s l) : XAlways o P ls s := by
  induction ls generalizing s with
  | nil => trivial
  | cons l ls ih => exact ⟨h l (by simp) s, fun x _ => ih fun l' h' => h l' (by simp [h'])⟩

/-! ## Refreshes -/

/-- in an undisturbed execution a step with an outdated load does nothing but write, and only while the reader waits -/
theorem late_write {s t : Sys H} {l : Label W} {p i : Nat} {r : Rec H} (C : Calm s) (hl : ∀ j, l ≠ .wakePhase j)
    (hi : l.loads = some i) (hr : s.recs[i]? = some r) (hp : r.lastPhase ≤ p) (hq : p < s.phase)
    (st : Step o.toHistOps { s with phase := p } l t) :
    ∃ w h, l = .write i w ∧ o.write w r.loc = .ok h ∧ r.pc = .ready ∧ r.lastPhase + 1 = s.phase ∧
      (∃ tm n k, s.reader = .wait tm n k) ∧
      ({ t with phase := s.phase } : Sys H) = s.put i { r with loc := h } := by
  have hm := mem_of_get hr
  have rest : RestOk s.phase r → r.pc = .ready → False := fun h hp' => by have := h.sync hp'; omega
  cases st with
  | write j w r' h hr' hp' hw =>
    cases hi
    dsimp only at hr'
    rw [hr] at hr'; cases hr'
    have hwait : r.lastPhase + 1 = s.phase ∧ ∃ tm n k, s.reader = .wait tm n k := by
      unfold Calm at C
      cases hrd : s.reader with
      | out =>
        rw [hrd] at C
        rcases C r hm with h | h | h | h
        · exact (rest h hp').elim
        · rw [hp'] at h; cases h
        · rw [hp'] at h; cases h
        · rw [hp'] at h; cases h.1
      | drain t => rw [hrd] at C; exact (rest (C.2 r hm) hp').elim
      | count t => rw [hrd] at C; exact (rest (C.2.1 r hm) hp').elim
      | counted t n => rw [hrd] at C; exact (rest (C.2.1 r hm) hp').elim
      | final => rw [hrd] at C; exact (rest (C.2 r hm) hp').elim
      | wait t n k =>
        rw [hrd] at C
        refine ⟨?_, t, n, k, rfl⟩
        rcases C.2.1 r hm with h | h | h | h
        · omega
        · exact h.2
        · rw [hp'] at h; cases h
        · rw [hp'] at h; cases h
    refine ⟨w, h, rfl, hw, hp', hwait.1, hwait.2, ?_⟩
    have : ¬ p ≠ r.lastPhase := by omega
    simp only [Sys.put, this, if_false]
    rw [← hp']
  | idlePhaseNew j r' hr' hp' hne | idlePhaseOld j r' hr' hp' he =>
    cases hi
    dsimp only at hr'
    rw [hr] at hr'; cases hr'
    exfalso
    have hh : r.pc.holds = true := by rw [hp']; rfl
    by_cases hrd : s.reader = .out
    · unfold Calm at C
      rw [hrd] at C
      rcases C r hm with h | h | h | h
      · rcases h with h | h | h
        · rw [hp'] at h; cases h.1
        · rw [hp'] at h; cases h
        · rw [hp'] at h; cases h
      · rw [hp'] at h; cases h
      · rw [hp'] at h; cases h
      · omega
    · rw [C.not_holds hrd r hm] at hh; cases hh
  | wakePhase j => exact absurd rfl (hl j)
  | _ => cases hi

theorem good_loc {s : Sys H} {i : Nat} {r : Rec H} {h : H} (G : Good s) (hr : s.recs[i]? = some r)
    (hp : r.pc = .ready) (hw : ∃ tm n k, s.reader = .wait tm n k) : Good (s.put i { r with loc := h }) := by
  obtain ⟨C, L, N⟩ := G
  obtain ⟨tm, n, k, hrd⟩ := hw
  have hm := mem_of_get hr
  refine ⟨?_, ?_, ?_⟩
  · unfold Calm at C ⊢
    dsimp only [Sys.put]
    rw [hrd] at C ⊢
    refine ⟨C.1, all_set C.2.1 (C.2.1 r hm), ?_, ?_⟩
    · rw [sumR_set_eq (f := countOf) (a := { r with loc := h }) hr rfl]; exact C.2.2.1
    · rw [sumR_set_eq (f := sent s.phase) (a := { r with loc := h }) hr rfl]; exact C.2.2.2
  · exact lock_put L hr fun hh => by dsimp only at hh; rw [hp] at hh; cases hh
  · change s.recorders = sumR countOf (s.recs.set i _)
    rw [sumR_set_eq (f := countOf) (a := { r with loc := h }) hr rfl]; exact N

theorem xgood_step {x x' : XSys H} {l : XLabel W} (G : Good x.sys ∧ Open x) (hl : XUndisturbed x l)
    (st : XStep o x l x') : Good x'.sys ∧ Open x' := by
  obtain ⟨G, O⟩ := G
  cases st with
  | now l t hn st => rw [deliver_open O]; exact ⟨good_step G hl st, O⟩
  | late l p i r t hi hr hp hq st =>
    rw [deliver_open O]
    obtain ⟨w, h, rfl, hw, hpc, hlast, hrd, he⟩ := late_write G.1 (fun j hj => by subst hj; exact hl) hi hr hp hq st
    exact ⟨by dsimp only; rw [he]; exact good_loc G hr hpc hrd, O⟩
  | own | reset => exact ⟨G, O⟩
  | close => exact absurd hl id

theorem xcoming_step {μ : H → Nat} {δ : W → Nat} (m : XMeasure o μ δ) {c D : Nat} {x x' : XSys H} {l : XLabel W}
    (K : Coming μ c D x.sys) (G : Good x.sys ∧ Open x) (hl : XUndisturbed x l) (hs : ∀ t, l ≠ .now (.start t))
    (st : XStep o x l x') : Coming μ c D x'.sys := by
  obtain ⟨G, O⟩ := G
  cases st with
  | now l t hn st =>
    rw [deliver_open O]
    exact coming_step m.toMeasure K G hl (fun t ht => hs t (by rw [ht])) st
  | late l p i r t hi hr hp hq st =>
    rw [deliver_open O]
    obtain ⟨w, h, rfl, hw, hpc, hlast, ⟨tm, n, k, hrd⟩, he⟩ :=
      late_write G.1 (fun j hj => by subst hj; exact hl) hi hr hp hq st
    dsimp only
    rw [he]
    have hμ := m.write _ _ _ hw
    have h1 := sumR_set (f := held μ x.sys.phase) (a := { r with loc := h }) hr
    have h2 : held μ x.sys.phase r ≤ held μ x.sys.phase { r with loc := h } := by
      unfold held
      dsimp only
      split <;> omega
    unfold Coming at K ⊢
    dsimp only [Sys.put]
    rw [hrd] at K ⊢
    dsimp only at K ⊢
    omega
  | own w h hc hr hw =>
    have := m.write _ _ _ hw
    unfold Coming at K ⊢
    rw [hr] at K
    dsimp only
    rw [hr]
    dsimp only at K ⊢
    omega
  | reset h hc hr hw =>
    have := m.reset _ _ hw
    unfold Coming at K ⊢
    rw [hr] at K
    dsimp only
    rw [hr]
    dsimp only at K ⊢
    omega
  | close => exact absurd hl id

/-! ## Waiting -/

/-- no refresh after the `SyncHistogram` is dropped -/
def ClosedOut (x : XSys H) : Prop := x.closed = true → x.sys.reader = .out

theorem reader_of_step {s s' : Sys H} {l : Label W} (hl : l.needsOwner = false) (st : Step o.toHistOps s l s') :
    s'.reader = s.reader := by
  cases st <;> first | rfl | cases hl

theorem loads_free {l : Label W} {i : Nat} (h : l.loads = some i) : l.needsOwner = false := by
  cases l <;> first | rfl | cases h

theorem closedOut_step {x x' : XSys H} {l : XLabel W} (I : ClosedOut x) (st : XStep o x l x') : ClosedOut x' := by
  have del : ∀ t : Sys H, (x.deliver t).sys.reader = t.reader := by
    intro t; unfold XSys.deliver; dsimp only; split <;> rfl
  cases st with
  | now l t hn st =>
    intro hc
    have hc : x.closed = true := hc
    rw [del, reader_of_step (by by_contra h; exact hn ⟨hc, by simpa using h⟩) st]
    exact I hc
  | late l p i r t hi hr hp hq st =>
    intro hc
    rw [del]
    have := reader_of_step (loads_free hi) st
    exact this.trans (I hc)
  | own | reset => exact I
  | close hc hr => exact fun _ => hr

theorem closed_step {x x' : XSys H} {l : XLabel W} (h : x.closed = true) (st : XStep o x l x') : x'.closed = true := by
  cases st <;> first | exact h | rfl

/-- an invariant that holds while the `SyncHistogram` exists -/
theorem while_open {I : Sys H → Prop} {x x' : XSys H} {l : XLabel W} (h : x.closed = true ∨ I x.sys)
    (st : XStep o x l x')
    (hnow : ∀ l' t, l = .now l' → I x.sys → Step o.toHistOps x.sys l' t → I t)
    (hlate : ∀ l' p i r t, l = .late l' p → I x.sys → l'.loads = some i → x.sys.recs[i]? = some r → r.lastPhase ≤ p →
      p < x.sys.phase → Step o.toHistOps { x.sys with phase := p } l' t → I { t with phase := x.sys.phase })
    (hown : ∀ m, I x.sys → I { x.sys with merged := m }) : x'.closed = true ∨ I x'.sys := by
  rcases h with h | h
  · exact Or.inl (closed_step h st)
  · cases hc : x'.closed with
    | true => exact Or.inl rfl
    | false =>
      right
      have O : Open x := by
        cases hx : x.closed with
        | false => exact hx
        | true => rw [closed_step hx st] at hc; cases hc
      cases st with
      | now l t hn st => rw [deliver_open O]; exact hnow l t rfl h st
      | late l p i r t hi hr hp hq st => rw [deliver_open O]; exact hlate l p i r t rfl h hi hr hp hq st
      | own w m | reset m => exact hown m h
      | close => cases hc

/-- the invariants before the phase change -/
def Before (s : Sys H) : Prop :=
  GapInv s ∧ LockInv s ∧ s.recorders ≤ sumR countOf s.recs ∧ ∀ r ∈ s.recs, PhaseOk s.phase r

theorem before_step {x x' : XSys H} {l : XLabel W} (I : x.closed = true ∨ Before x.sys) (hl : XNoIdleInGap x l)
    (st : XStep o x l x') : x'.closed = true ∨ Before x'.sys := by
  refine while_open I st ?_ ?_ ?_
  · rintro l t rfl I st
    exact ⟨gap_step I.1 I.2.1 I.2.2.1 hl st, lock_step I.2.1 st, count_le_step I.2.2.1 st, phase_step I.2.2.2 st⟩
  · rintro l p i r t rfl I hi hr hp hq st
    have h1 := gap_step (by exact I.1) (by exact I.2.1) (by exact I.2.2.1)
      (by cases l <;> trivial) st
    have h2 := lock_step (by exact I.2.1) st
    have h3 := count_le_step (by exact I.2.2.1) st
    refine ⟨h1, h2, h3, ?_⟩
    · have P := I.2.2.2
      cases st with
      | write j w r' h hr' hp' hw =>
        have h := P r' (mem_of_get hr')
        cases hi
        dsimp only at hr'
        rw [hr] at hr'; cases hr'
        refine all_set P ⟨h.1, fun q hq' => ?_, fun q hq' => ?_⟩
        · dsimp only at hq'
          split at hq'
          · cases hq'; dsimp only; omega
          · cases hq'
        · dsimp only at hq'
          split at hq' <;> cases hq'
      | idlePhaseNew j r' hr' hp' hne =>
        exact all_set P ⟨(P r' (mem_of_get hr')).1, fun p h => (by cases h), fun p h => (by cases h; exact hq.le)⟩
      | idlePhaseOld j r' hr' hp' he => exact all_set P ⟨hq.le, fun p h => (by cases h), fun p h => (by cases h)⟩
      | wakePhase j r' hr' hp' => exact all_set P ⟨hq.le, fun p h => (by cases h), fun p h => (by cases h)⟩
      | _ => cases hi
  · intro m I; exact I

/-- a late load made by `idle` or on reactivation -/
def LockedLate : XLabel W → Prop
  | .late (.idlePhase _) _ | .late (.wakePhase _) _ => True
  | _ => False

theorem xwait_step {N : Nat} {x x' : XSys H} {l : XLabel W} (I : x.closed = true ∨ WaitInv N x.sys)
    (hl : l ≠ .now .bump ∧ ¬ LockedLate l) (st : XStep o x l x') : x'.closed = true ∨ WaitInv N x'.sys := by
  refine while_open I st ?_ ?_ ?_
  · rintro l t rfl I st
    exact wait_step I (fun h => hl.1 (by rw [h])) st
  · rintro l p i r t rfl I hi hr hp hq st
    cases st with
    | write j w r' h hr' hp' hw =>
      cases hi
      dsimp only at hr'
      rw [hr] at hr'; cases hr'
      refine wait_put (d := 0) I hr ?_ rfl rfl rfl rfl
      unfold owes; dsimp only; rw [hp']
      by_cases hc : p = r.lastPhase <;> simp [hc]
    | idlePhaseNew | idlePhaseOld | wakePhase => exact absurd trivial hl.2
    | _ => cases hi
  · intro m I; exact I

theorem xanswered_step {j : Nat} {x x' : XSys H} {l : XLabel W}
    (I : x.closed = true ∨ (Answered j x.sys ∧ j < x.sys.recs.length))
    (hl : l ≠ .now .bump ∧ ¬ LockedLate l ∧ ∀ i, l ≠ .now (.forget i)) (st : XStep o x l x') :
    x'.closed = true ∨ (Answered j x'.sys ∧ j < x'.sys.recs.length) := by
  refine while_open (I := fun s => Answered j s ∧ j < s.recs.length) I st ?_ ?_ ?_
  · rintro l t rfl I st
    refine answered_step I ⟨?_, fun h => hl.1 (by rw [h])⟩ st
    cases l <;> first | trivial | exact absurd rfl (hl.2.2 _)
  · rintro l p i r t rfl ⟨A, hj⟩ hi hr hp hq st
    cases st with
    | write k w r' h hr' hp' hw =>
      cases hi
      dsimp only at hr'
      rw [hr] at hr'; cases hr'
      refine ⟨answered_put A rfl rfl fun hij => ?_, by simpa [Sys.put] using hj⟩
      subst hij
      have := (A r hr).1 hp'
      omega
    | idlePhaseNew | idlePhaseOld | wakePhase => exact absurd trivial hl.2.1
    | _ => cases hi
  · intro m I; exact I

theorem xexec_now {ls : List (Label W)} {x : XSys H} (O : Open x) :
    xexec o (ls.map .now) x = after (exec o.toHistOps ls x.sys) fun t => { x with sys := t } := by
  induction ls generalizing x with
  | nil => rfl
  | cons l ls ih =>
    simp only [List.map_cons, xexec, exec, xstep]
    rw [if_neg (by rw [show x.closed = false from O]; simp)]
    cases h : step o.toHistOps x.sys l with
    | none => rfl
    | some y =>
      cases y with
      | error p => rfl
      | ok t =>
        simp only [after, Option.map_some, M.ok_bind, M.pure_eq]
        rw [deliver_open O, ih (by exact O)]
        rfl

theorem xfinishes_of {x : XSys H} (O : Open x) (h : Finishes o.toHistOps x.sys) : XFinishes o x := by
  obtain ⟨ls, h1, h2⟩ := h
  refine ⟨ls, h1, ?_⟩
  rw [xexec_now O]
  rcases h2 with ⟨s, h2, h3⟩ | ⟨p, h2⟩
  · left
    rw [h2]
    exact ⟨_, rfl, h3⟩
  · right
    rw [h2]
    exact ⟨p, rfl⟩

end Hdr.Sync
