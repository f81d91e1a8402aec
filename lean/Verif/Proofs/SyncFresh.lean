import Verif.Proofs.SyncCount
import Verif.Proofs.SyncContent

/-!
# Undisturbed refreshes incorporate everything
-/

namespace Hdr.Sync

variable {H W : Type} {o : HistOps H W}

/-- a recorder between refreshes: no call in progress, up to date if active -/
def RestOk (phase : Nat) (r : Rec H) : Prop :=
  (r.pc = .ready ∧ r.lastPhase = phase) ∨ r.pc = .idle ∨ r.pc = .gone

/-- a recorder between refreshes, perhaps entering or leaving -/
def OutOk (phase : Nat) (r : Rec H) : Prop :=
  RestOk phase r ∨ r.pc = .dropSend ∨ r.pc = .wakePhase ∨ (r.pc = .idlePhase ∧ r.lastPhase = phase)

/-- a recorder while the reader waits -/
def WaitOk (phase : Nat) (r : Rec H) : Prop :=
  (r.pc = .ready ∧ (r.lastPhase = phase ∨ r.lastPhase + 1 = phase)) ∨
  (r.pc = .send phase ∧ r.lastPhase + 1 = phase) ∨ r.pc = .idle ∨ r.pc = .gone

/-- the recorder has sent its histogram for this phase -/
def sent (phase : Nat) (r : Rec H) : Nat := if r.pc = .ready ∧ r.lastPhase = phase then 1 else 0

/-- what holds at every moment of an undisturbed execution -/
def Calm (s : Sys H) : Prop :=
  match s.reader with
  | .out => ∀ r ∈ s.recs, OutOk s.phase r
  | .drain _ => s.lock = none ∧ ∀ r ∈ s.recs, RestOk s.phase r
  | .count _ => s.lock = none ∧ (∀ r ∈ s.recs, RestOk s.phase r) ∧ s.chan = []
  | .counted _ n => s.lock = none ∧ (∀ r ∈ s.recs, RestOk s.phase r) ∧ s.chan = [] ∧ n = sumR countOf s.recs
  | .wait _ n k => s.lock = none ∧ (∀ r ∈ s.recs, WaitOk s.phase r) ∧ n = sumR countOf s.recs
      ∧ k + s.chan.length = sumR (sent s.phase) s.recs
  | .final => s.lock = none ∧ ∀ r ∈ s.recs, RestOk s.phase r

theorem OutOk.rest {s : Sys H} {r : Rec H} (L : LockInv s) (hl : s.lock = none) (hr : r ∈ s.recs)
    (h : OutOk s.phase r) : RestOk s.phase r := by
  obtain ⟨i, hi⟩ := List.mem_iff_getElem?.mp hr
  have := L.none_of_lock hl i r hi
  rcases h with h | h | h | h
  · exact h
  · rw [h] at this; cases this
  · rw [h] at this; cases this
  · rw [h.1] at this; cases this

theorem RestOk.not_holds {phase : Nat} {r : Rec H} (h : RestOk phase r) : r.pc.holds = false := by
  rcases h with h | h | h
  · rw [h.1]; rfl
  · rw [h]; rfl
  · rw [h]; rfl

theorem WaitOk.not_holds {phase : Nat} {r : Rec H} (h : WaitOk phase r) : r.pc.holds = false := by
  rcases h with h | h | h | h
  · rw [h.1]; rfl
  · rw [h.1]; rfl
  · rw [h]; rfl
  · rw [h]; rfl

/-- during a refresh nobody is in a critical section -/
theorem Calm.not_holds {s : Sys H} (C : Calm s) (h : s.reader ≠ .out) : ∀ r ∈ s.recs, r.pc.holds = false := by
  intro r hr
  unfold Calm at C
  split at C
  · exact absurd (by assumption) h
  · exact (C.2 r hr).not_holds
  · exact (C.2.1 r hr).not_holds
  · exact (C.2.1 r hr).not_holds
  · exact (C.2.1 r hr).not_holds
  · exact (C.2 r hr).not_holds

theorem RestOk.sync {phase : Nat} {r : Rec H} (h : RestOk phase r) (hp : r.pc = .ready) : r.lastPhase = phase := by
  rcases h with h | h | h
  · exact h.2
  · rw [hp] at h; cases h
  · rw [hp] at h; cases h

theorem RestOk.not_send {phase p : Nat} {r : Rec H} (h : RestOk phase r) : r.pc ≠ .send p := by
  intro hc
  rcases h with h | h | h
  · rw [hc] at h; cases h.1
  · rw [hc] at h; cases h
  · rw [hc] at h; cases h

/-- writing, between refreshes or before the phase change -/
theorem rest_write {phase : Nat} {r : Rec H} {l : H} (h : r.lastPhase = phase) :
    RestOk phase { r with loc := l, pc := if phase ≠ r.lastPhase then .send phase else .ready } := by
  left; simp [h]

theorem countOf_write {r : Rec H} {l : H} {phase : Nat} (hp : r.pc = .ready) :
    countOf { r with loc := l, pc := if phase ≠ r.lastPhase then .send phase else .ready } = countOf r := by
  unfold countOf
  by_cases h : phase = r.lastPhase <;> simp [h, hp, Pc.counted]

theorem sumR_set_eq {f : Rec H → Nat} {l : List (Rec H)} {i : Nat} {r a : Rec H} (hr : l[i]? = some r)
    (h : f a = f r) : sumR f (l.set i a) = sumR f l := by
  have := sumR_set (f := f) (a := a) hr
  omega

theorem calm_write {s : Sys H} {i : Nat} {r : Rec H} {l : H} (C : Calm s) (hr : s.recs[i]? = some r)
    (hp : r.pc = .ready) :
    Calm (s.put i { r with loc := l, pc := if s.phase ≠ r.lastPhase then .send s.phase else .ready }) := by
  have hm := mem_of_get hr
  unfold Calm at C ⊢
  dsimp only [Sys.put]
  cases hrd : s.reader with
  | out =>
    rw [hrd] at C
    dsimp only at C ⊢
    refine all_set C (Or.inl (rest_write ?_))
    rcases C r hm with h | h | h | h
    · exact h.sync hp
    · rw [hp] at h; cases h
    · rw [hp] at h; cases h
    · exact h.2
  | drain t =>
    rw [hrd] at C
    exact ⟨C.1, all_set C.2 (rest_write ((C.2 r hm).sync hp))⟩
  | count t =>
    rw [hrd] at C
    exact ⟨C.1, all_set C.2.1 (rest_write ((C.2.1 r hm).sync hp)), C.2.2⟩
  | counted t n =>
    rw [hrd] at C
    refine ⟨C.1, all_set C.2.1 (rest_write ((C.2.1 r hm).sync hp)), C.2.2.1, ?_⟩
    rw [sumR_set_eq hr (countOf_write hp)]
    exact C.2.2.2
  | wait t n k =>
    rw [hrd] at C
    have hw : r.lastPhase = s.phase ∨ r.lastPhase + 1 = s.phase := by
      rcases C.2.1 r hm with h | h | h | h
      · exact h.2
      · exact Or.inr h.2
      · rw [hp] at h; cases h
      · rw [hp] at h; cases h
    refine ⟨C.1, all_set C.2.1 ?_, ?_, ?_⟩
    · by_cases hc : s.phase = r.lastPhase
      · left; simp [hc]
      · right; left
        refine ⟨by simp [hc], ?_⟩
        dsimp only; omega
    · rw [sumR_set_eq hr (countOf_write hp)]
      exact C.2.2.1
    · rw [sumR_set_eq hr]
      · exact C.2.2.2
      · unfold sent
        by_cases hc : s.phase = r.lastPhase
        · simp [hp, hc]
        · simp [hp, hc, show ¬ r.lastPhase = s.phase from fun h => hc h.symm]
  | final =>
    rw [hrd] at C
    exact ⟨C.1, all_set C.2 (rest_write ((C.2 r hm).sync hp))⟩

theorem sent_le_countOf {s : Sys H} {phase : Nat} :
    ∀ r ∈ s.recs, sent phase r ≤ countOf r := by
  intro r _
  unfold sent countOf
  split
  · rename_i hc
    rw [hc.1]; simp [Pc.counted]
  · omega

/-- when the wait is over everyone has sent -/
theorem wait_over {s : Sys H} {t : Bool} {n k : Nat} (C : Calm s) (hrd : s.reader = .wait t n k) (hk : ¬ k < n) :
    (∀ r ∈ s.recs, RestOk s.phase r) ∧ s.chan = [] := by
  unfold Calm at C
  rw [hrd] at C
  dsimp only at C
  obtain ⟨-, hw, hn, hs⟩ := C
  have hle := sent_le_countOf (s := s) (phase := s.phase)
  have h1 := sumR_le hle
  have h2 := sumR_eq_of_le hle (by omega)
  refine ⟨fun r hr => ?_, ?_⟩
  · have h3 := h2 r hr
    rcases hw r hr with h | h | h | h
    · left
      refine ⟨h.1, ?_⟩
      unfold sent countOf at h3
      rw [h.1] at h3
      by_contra hc
      simp [hc, Pc.counted] at h3
    · unfold sent countOf at h3
      rw [h.1] at h3
      simp [Pc.counted] at h3
    · exact Or.inr (Or.inl h)
    · exact Or.inr (Or.inr h)
  · have : s.chan.length = 0 := by omega
    exact List.length_eq_zero_iff.mp this

theorem calm_step {s s' : Sys H} {l : Label W} (C : Calm s) (L : LockInv s) (N : s.recorders = sumR countOf s.recs)
    (hl : Undisturbed s l) (st : Step o s l s') : Calm s' := by
  have busy : ∀ (i : Nat) (r : Rec H), s.recs[i]? = some r → r.pc.holds = true → s.reader = .out := by
    intro i r hr hh
    by_contra hc
    rw [C.not_holds hc r (mem_of_get hr)] at hh
    cases hh
  cases st with
  | write i w r l hr hp hw => exact calm_write C hr hp
  | writeSend i r p f hr hp hf =>
    have hm := mem_of_get hr
    unfold Calm at C ⊢
    dsimp only [Sys.put]
    cases hrd : s.reader with
    | out =>
      rw [hrd] at C
      rcases C r hm with h | h | h | h
      · exact absurd hp h.not_send
      · rw [hp] at h; cases h
      · rw [hp] at h; cases h
      · rw [hp] at h; cases h.1
    | drain t => rw [hrd] at C; exact absurd hp (C.2 r hm).not_send
    | count t => rw [hrd] at C; exact absurd hp (C.2.1 r hm).not_send
    | counted t n => rw [hrd] at C; exact absurd hp (C.2.1 r hm).not_send
    | final => rw [hrd] at C; exact absurd hp (C.2 r hm).not_send
    | wait t n k =>
      rw [hrd] at C
      have hpp : p = s.phase ∧ r.lastPhase + 1 = s.phase := by
        rcases C.2.1 r hm with h | h | h | h
        · rw [hp] at h; cases h.1
        · rw [hp] at h; exact ⟨Pc.send.inj h.1, h.2⟩
        · rw [hp] at h; cases h
        · rw [hp] at h; cases h
      refine ⟨C.1, all_set C.2.1 (Or.inl ⟨rfl, Or.inl hpp.1⟩), ?_, ?_⟩
      · rw [sumR_set_eq hr]
        · exact C.2.2.1
        · unfold countOf; rw [hp]; rfl
      · have h1 := sumR_set (f := sent s.phase) (a := { loc := f, lastPhase := p, pc := .ready }) hr
        have h2 : sent s.phase r = 0 := by unfold sent; rw [hp]; simp
        have h3 : sent s.phase { loc := f, lastPhase := p, pc := .ready } = 1 := by unfold sent; simp [hpp.1]
        have h4 := C.2.2.2
        simp only [List.length_append, List.length_cons, List.length_nil]
        omega
  | recorder f hlk hrd hf =>
    unfold Calm at C ⊢
    rw [hrd] at C ⊢
    exact all_append C (Or.inl (Or.inl ⟨rfl, rfl⟩))
  | clone i r f hr hlk hp hf =>
    have hrd := hl.1
    have hne := hl.2 r hr
    unfold Calm at C ⊢
    rw [hrd] at C
    dsimp only
    rw [hrd]
    refine all_append C (Or.inl (Or.inl ⟨rfl, ?_⟩))
    have hp : r.pc = .ready := by
      rcases hp with h | h
      · exact h
      · exact absurd h hne
    exact ((C r (mem_of_get hr)).rest L hlk (mem_of_get hr)).sync hp
  | drop i r hr hp hlk h1 =>
    have hrd : s.reader = .out := hl
    unfold Calm at C ⊢
    rw [hrd] at C
    dsimp only [Sys.put]
    rw [hrd]
    exact all_set C (Or.inr (Or.inl rfl))
  | idle i r hr hp hlk h1 =>
    have hrd : s.reader = .out := hl
    unfold Calm at C ⊢
    rw [hrd] at C
    dsimp only [Sys.put]
    rw [hrd]
    exact all_set C (Or.inr (Or.inr (Or.inr
      ⟨rfl, ((C r (mem_of_get hr)).rest L hlk (mem_of_get hr)).sync hp⟩)))
  | wake i r hr hp hlk =>
    have hrd : s.reader = .out := hl
    unfold Calm at C ⊢
    rw [hrd] at C
    dsimp only [Sys.put]
    rw [hrd]
    exact all_set C (Or.inr (Or.inr (Or.inl rfl)))
  | dropSend i r f hr hp hf =>
    have hrd := busy i r hr (by rw [hp]; rfl)
    unfold Calm at C ⊢
    rw [hrd] at C
    dsimp only [Sys.put]
    rw [hrd]
    exact all_set C (Or.inl (Or.inr (Or.inr rfl)))
  | idlePhaseNew i r hr hp hne =>
    have hrd := busy i r hr (by rw [hp]; rfl)
    unfold Calm at C
    rw [hrd] at C
    rcases C r (mem_of_get hr) with h | h | h | h
    · rcases h with h | h | h
      · rw [hp] at h; cases h.1
      · rw [hp] at h; cases h
      · rw [hp] at h; cases h
    · rw [hp] at h; cases h
    · rw [hp] at h; cases h
    · exact absurd h.2.symm hne
  | idlePhaseOld i r hr hp he =>
    have hrd := busy i r hr (by rw [hp]; rfl)
    unfold Calm at C ⊢
    rw [hrd] at C
    dsimp only [Sys.put]
    rw [hrd]
    exact all_set C (Or.inl (Or.inr (Or.inl rfl)))
  | idleSend i r p f hr hp hf =>
    have hrd := busy i r hr (by rw [hp]; rfl)
    unfold Calm at C ⊢
    rw [hrd] at C
    dsimp only [Sys.put]
    rw [hrd]
    exact all_set C (Or.inl (Or.inr (Or.inl rfl)))
  | wakePhase i r hr hp =>
    have hrd := busy i r hr (by rw [hp]; rfl)
    unfold Calm at C ⊢
    rw [hrd] at C
    dsimp only [Sys.put]
    rw [hrd]
    exact all_set C (Or.inl (Or.inl ⟨rfl, rfl⟩))
  | forget => exact absurd hl id
  | start t hrd =>
    unfold Calm at C ⊢
    rw [hrd] at C
    exact ⟨hl, fun r hr => (C r hr).rest L hl hr⟩
  | drain t h rest m hrd hc ha =>
    unfold Calm at C ⊢
    rw [hrd] at C
    exact C
  | drainEnd t hrd hc =>
    unfold Calm at C ⊢
    rw [hrd] at C
    exact ⟨C.1, C.2, hc⟩
  | count t hrd hlk =>
    unfold Calm at C ⊢
    rw [hrd] at C
    exact ⟨C.1, C.2.1, C.2.2, N⟩
  | bump t n hrd =>
    unfold Calm at C ⊢
    rw [hrd] at C
    obtain ⟨h1, h2, h3, h4⟩ := C
    refine ⟨h1, fun r hr => ?_, h4, ?_⟩
    · rcases h2 r hr with h | h | h
      · left; refine ⟨h.1, Or.inr ?_⟩; dsimp only; omega
      · exact Or.inr (Or.inr (Or.inl h))
      · exact Or.inr (Or.inr (Or.inr h))
    · dsimp only
      rw [h3]
      symm
      rw [sumR_congr (g := fun _ => 0)]
      · simp [sumR]
      · intro r hr
        unfold sent
        rw [if_neg]
        rintro ⟨hp, hph⟩
        have := (h2 r hr).sync hp
        omega
  | recv t n k h rest m hrd hk hc ha =>
    unfold Calm at C ⊢
    rw [hrd] at C
    obtain ⟨h1, h2, h3, h4⟩ := C
    refine ⟨h1, h2, h3, ?_⟩
    rw [hc, List.length_cons] at h4
    dsimp only; omega
  | timeout => exact absurd hl id
  | waitEnd t n k hrd hk =>
    have h1 := wait_over C hrd hk
    unfold Calm at C ⊢
    rw [hrd] at C
    exact ⟨C.1, h1.1⟩
  | finalRecv h rest m hrd hc ha =>
    unfold Calm at C ⊢
    rw [hrd] at C
    exact C
  | finalEnd hrd hc =>
    unfold Calm at C ⊢
    rw [hrd] at C
    exact fun r hr => Or.inl (C.2 r hr)

theorem Undisturbed.notForget {s : Sys H} {l : Label W} (h : Undisturbed s l) : NotForget s l := by
  cases l <;> first | exact h | trivial

/-- the structural invariants together -/
def Good (s : Sys H) : Prop := Calm s ∧ LockInv s ∧ s.recorders = sumR countOf s.recs

theorem good_step {s s' : Sys H} {l : Label W} (G : Good s) (hl : Undisturbed s l) (st : Step o s l s') : Good s' :=
  ⟨calm_step G.1 G.2.1 G.2.2 hl st, lock_step G.2.1 st,
    Nat.le_antisymm (count_le_step G.2.2.le st) (count_ge_step G.2.2.ge hl.notForget st)⟩

theorem good_init {h : H} : Good (Sys.init h) :=
  ⟨by unfold Calm; simp [Sys.init], lock_init, rfl⟩

/-! ## The contents during a refresh -/

/-- what an active recorder holds, if it has not sent yet -/
def held (μ : H → Nat) (phase : Nat) (r : Rec H) : Nat :=
  if r.pc.active = true ∧ r.lastPhase ≠ phase then μ r.loc else 0

/-- what an active recorder holds -/
def own (μ : H → Nat) (r : Rec H) : Nat := if r.pc.active then μ r.loc else 0

/-- at least `c` of the contents is merged or, up to `D`, on its way -/
def Coming (μ : H → Nat) (c D : Nat) (s : Sys H) : Prop :=
  match s.reader with
  | .out => c ≤ μ s.merged + D
  | .drain _ | .count _ | .counted _ _ => c ≤ μ s.merged + (s.chan.map μ).sum + sumR (own μ) s.recs + D
  | .wait _ _ _ => c ≤ μ s.merged + (s.chan.map μ).sum + sumR (held μ s.phase) s.recs + D
  | .final => c ≤ μ s.merged + (s.chan.map μ).sum + D

theorem coming_step {μ : H → Nat} {δ : W → Nat} (m : Measure o μ δ) {c D : Nat} {s s' : Sys H} {l : Label W}
    (K : Coming μ c D s) (G : Good s) (hl : Undisturbed s l) (hs : ∀ t, l ≠ .start t) (st : Step o s l s') :
    Coming μ c D s' := by
  have C := G.1
  have busy : ∀ (i : Nat) (r : Rec H), s.recs[i]? = some r → r.pc.holds = true → s.reader = .out := by
    intro i r hr hh
    by_contra hc
    rw [C.not_holds hc r (mem_of_get hr)] at hh
    cases hh
  cases st with
  | write i w r l hr hp hw =>
    have hμ := m.write _ _ _ hw
    have h1 := sumR_set (f := own μ)
      (a := { r with loc := l, pc := if s.phase ≠ r.lastPhase then .send s.phase else .ready }) hr
    have h2 := sumR_set (f := held μ s.phase)
      (a := { r with loc := l, pc := if s.phase ≠ r.lastPhase then .send s.phase else .ready }) hr
    have h3 : own μ r ≤ own μ { r with loc := l, pc := if s.phase ≠ r.lastPhase then .send s.phase else .ready } := by
      unfold own
      by_cases hc : s.phase = r.lastPhase <;> simp [hc, hp, Pc.active] <;> omega
    have h4 : held μ s.phase r ≤
        held μ s.phase { r with loc := l, pc := if s.phase ≠ r.lastPhase then .send s.phase else .ready } := by
      unfold held
      by_cases hc : s.phase = r.lastPhase
      · simp [hc]
      · simp [hc, hp, Pc.active, show ¬ r.lastPhase = s.phase from fun h => hc h.symm]; omega
    unfold Coming at K ⊢
    dsimp only [Sys.put]
    cases hrd : s.reader <;> rw [hrd] at K <;> dsimp only at K ⊢ <;> omega
  | writeSend i r p f hr hp hf =>
    have hm := mem_of_get hr
    have hrd : ∃ t n k, s.reader = .wait t n k ∧ p = s.phase ∧ r.lastPhase + 1 = s.phase := by
      unfold Calm at C
      cases hrd : s.reader with
      | out =>
        rw [hrd] at C
        rcases C r hm with h | h | h | h
        · exact absurd hp h.not_send
        · rw [hp] at h; cases h
        · rw [hp] at h; cases h
        · rw [hp] at h; cases h.1
      | drain t => rw [hrd] at C; exact absurd hp (C.2 r hm).not_send
      | count t => rw [hrd] at C; exact absurd hp (C.2.1 r hm).not_send
      | counted t n => rw [hrd] at C; exact absurd hp (C.2.1 r hm).not_send
      | final => rw [hrd] at C; exact absurd hp (C.2 r hm).not_send
      | wait t n k =>
        rw [hrd] at C
        refine ⟨t, n, k, rfl, ?_⟩
        rcases C.2.1 r hm with h | h | h | h
        · rw [hp] at h; cases h.1
        · rw [hp] at h; exact ⟨Pc.send.inj h.1, h.2⟩
        · rw [hp] at h; cases h
        · rw [hp] at h; cases h
    obtain ⟨t, n, k, hrd, hpp, hlast⟩ := hrd
    have h1 := sumR_set (f := held μ s.phase) (a := { loc := f, lastPhase := p, pc := .ready }) hr
    have h2 : held μ s.phase r = μ r.loc := by
      unfold held; rw [if_pos ⟨by rw [hp]; rfl, by omega⟩]
    have h3 : held μ s.phase { loc := f, lastPhase := p, pc := .ready } = 0 := by
      unfold held; simp [hpp]
    unfold Coming at K ⊢
    dsimp only [Sys.put]
    rw [hrd] at K ⊢
    dsimp only at K ⊢
    simp only [List.map_append, List.sum_append, List.map_cons, List.map_nil, List.sum_cons, List.sum_nil]
    omega
  | recorder f hlk hrd hf =>
    unfold Coming at K ⊢
    rw [hrd] at K ⊢
    exact K
  | clone i r f hr hlk hp hf =>
    have hrd := hl.1
    unfold Coming at K ⊢
    rw [hrd] at K
    dsimp only
    rw [hrd]
    exact K
  | drop i r hr hp hlk h1 | idle i r hr hp hlk h1 | wake i r hr hp hlk =>
    have hrd : s.reader = .out := hl
    unfold Coming at K ⊢
    rw [hrd] at K
    dsimp only [Sys.put]
    rw [hrd]
    exact K
  | dropSend i r f hr hp hf | idlePhaseNew i r hr hp hne | idlePhaseOld i r hr hp he | idleSend i r p f hr hp hf
  | wakePhase i r hr hp =>
    have hrd := busy i r hr (by rw [hp]; rfl)
    unfold Coming at K ⊢
    rw [hrd] at K
    dsimp only [Sys.put]
    rw [hrd]
    exact K
  | forget => exact absurd hl id
  | start t hrd => exact absurd rfl (hs t)
  | drain t h rest m' hrd hc ha =>
    have := m.add _ _ _ ha
    unfold Coming at K ⊢
    rw [hrd] at K
    rw [hc] at K
    simp only [List.map_cons, List.sum_cons] at K ⊢
    omega
  | drainEnd t hrd hc | count t hrd hlk =>
    unfold Coming at K ⊢
    rw [hrd] at K
    exact K
  | bump t n hrd =>
    have h1 : sumR (own μ) s.recs ≤ sumR (held μ (s.phase + 1)) s.recs := by
      apply sumR_le
      intro r hr
      unfold Calm at C
      rw [hrd] at C
      unfold own held
      rcases C.2.1 r hr with h | h | h
      · rw [h.1, h.2]; simp
      · rw [h]; simp [Pc.active]
      · rw [h]; simp [Pc.active]
    unfold Coming at K ⊢
    rw [hrd] at K
    dsimp only at K ⊢
    omega
  | recv t n k h rest m' hrd hk hc ha =>
    have := m.add _ _ _ ha
    unfold Coming at K ⊢
    rw [hrd] at K
    rw [hc] at K
    simp only [List.map_cons, List.sum_cons] at K ⊢
    omega
  | timeout => exact absurd hl id
  | waitEnd t n k hrd hk =>
    have h1 := wait_over C hrd hk
    have h2 : sumR (held μ s.phase) s.recs = 0 := by
      rw [sumR_congr (g := fun _ => 0)]
      · simp [sumR]
      · intro r hr
        unfold held
        rcases h1.1 r hr with h | h | h
        · simp [h.2]
        · rw [h]; simp [Pc.active]
        · rw [h]; simp [Pc.active]
    unfold Coming at K ⊢
    rw [hrd] at K
    dsimp only at K ⊢
    omega
  | finalRecv h rest m' hrd hc ha =>
    have := m.add _ _ _ ha
    unfold Coming at K ⊢
    rw [hrd] at K
    rw [hc] at K
    simp only [List.map_cons, List.sum_cons] at K ⊢
    omega
  | finalEnd hrd hc =>
    unfold Coming at K ⊢
    rw [hrd] at K
    rw [hc] at K
    simpa using K

end Hdr.Sync
