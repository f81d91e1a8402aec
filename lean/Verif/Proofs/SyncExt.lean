import Verif.Spec.SyncExt
import Verif.Proofs.SyncContent
import Verif.Proofs.SyncSafe

/-!
# Outdated loads, an active owner, a dropped `SyncHistogram`: steps and conservation
-/

namespace Hdr.Sync

variable {H W : Type} {o : OwnerOps H W}

/-! ## The steps as a relation -/

/-- the successful steps -/
inductive XStep (o : OwnerOps H W) (x : XSys H) : XLabel W → XSys H → Prop where
  | now (l : Label W) (t : Sys H) : ¬ (x.closed = true ∧ l.needsOwner = true) → Step o.toHistOps x.sys l t →
      XStep o x (.now l) (x.deliver t)
  | late (l : Label W) (p i : Nat) (r : Rec H) (t : Sys H) : l.loads = some i → x.sys.recs[i]? = some r →
      r.lastPhase ≤ p → p < x.sys.phase → Step o.toHistOps { x.sys with phase := p } l t →
      XStep o x (.late l p) (x.deliver { t with phase := x.sys.phase })
  | own (w : W) (m : H) : x.closed = false → x.sys.reader = .out → o.write w x.sys.merged = .ok m →
      XStep o x (.own w) { x with sys := { x.sys with merged := m } }
  | reset (m : H) : x.closed = false → x.sys.reader = .out → o.reset x.sys.merged = .ok m →
      XStep o x .reset { x with sys := { x.sys with merged := m } }
  | close : x.closed = false → x.sys.reader = .out →
      XStep o x .close { sys := { x.sys with chan := [] }, closed := true }

theorem after_ok {A B : Type} {x : Option (M A)} {f : A → B} {b : B} (e : after x f = some (.ok b)) :
    ∃ a, x = some (.ok a) ∧ b = f a := by
  cases x with
  | none => cases e
  | some m =>
    cases m with
    | error p => cases e
    | ok a => cases e; exact ⟨a, rfl, rfl⟩

theorem after_error {A B : Type} {x : Option (M A)} {f : A → B} {p : Panic} (e : after x f = some (.error p)) :
    x = some (.error p) := by
  cases x with
  | none => cases e
  | some m =>
    cases m with
    | error p => cases e; rfl
    | ok a => cases e

theorem late_some {o : HistOps H W} {s : Sys H} {l : Label W} {p : Nat} {y : M (Sys H)}
    (e : lateStep o s l p = some y) : ∃ i r, l.loads = some i ∧ s.recs[i]? = some r ∧ r.lastPhase ≤ p ∧ p < s.phase ∧
      after (step o { s with phase := p } l) (fun t => { t with phase := s.phase }) = some y := by
  unfold lateStep at e
  split at e
  · rename_i i hi
    split at e
    · rename_i r hr
      split at e
      · rename_i hp
        exact ⟨i, r, hi, hr, hp.1, hp.2, e⟩
      · cases e
    · cases e
  · cases e

theorem owner_some {x : XSys H} {f : H → M H} {y : M (XSys H)} (e : x.owner f = some y) :
    x.closed = false ∧ x.sys.reader = .out ∧
      y = (do let m ← f x.sys.merged; pure { x with sys := { x.sys with merged := m } }) := by
  unfold XSys.owner at e
  split at e
  · rename_i hc
    cases e; exact ⟨hc.1, hc.2, rfl⟩
  · cases e

theorem xstep_ok {x x' : XSys H} {l : XLabel W} (e : xstep o x l = some (.ok x')) : XStep o x l x' := by
  cases l with
  | now l =>
    simp only [xstep] at e
    split at e
    · cases e
    · obtain ⟨t, h1, rfl⟩ := after_ok e
      exact .now l t (by assumption) (step_ok h1)
  | late l p =>
    obtain ⟨t, h1, rfl⟩ := after_ok e
    obtain ⟨i, r, hi, hr, hp, hq, h2⟩ := late_some h1
    obtain ⟨u, h3, rfl⟩ := after_ok h2
    exact .late l p i r u hi hr hp hq (step_ok h3)
  | own w =>
    obtain ⟨hc, hr, h⟩ := owner_some e
    obtain ⟨m, h1, h2⟩ := (M.bind_eq_ok).mp h.symm
    cases h2
    exact .own w m hc hr h1
  | reset =>
    obtain ⟨hc, hr, h⟩ := owner_some e
    obtain ⟨m, h1, h2⟩ := (M.bind_eq_ok).mp h.symm
    cases h2
    exact .reset m hc hr h1
  | close =>
    simp only [xstep] at e
    split at e
    · rename_i hc
      cases e; exact .close hc.1 hc.2
    · cases e

theorem xexec_cons {l : XLabel W} {ls : List (XLabel W)} {s s' : XSys H}
    (e : xexec o (l :: ls) s = some (.ok s')) : ∃ t, xstep o s l = some (.ok t) ∧ xexec o ls t = some (.ok s') := by
  simp only [xexec] at e
  split at e
  · cases e
  · cases e
  · exact ⟨_, by assumption, e⟩

theorem xexec_append {l1 l2 : List (XLabel W)} {s s' : XSys H}
    (e : xexec o (l1 ++ l2) s = some (.ok s')) : ∃ t, xexec o l1 s = some (.ok t) ∧ xexec o l2 t = some (.ok s') := by
  induction l1 generalizing s with
  | nil => exact ⟨s, rfl, e⟩
  | cons l ls ih =>
    obtain ⟨t, e1, e2⟩ := xexec_cons e
    obtain ⟨u, e3, e4⟩ := ih e2
    refine ⟨u, ?_, e4⟩
    simp only [xexec, e1]
    exact e3

theorem xexec_trans {l1 l2 : List (XLabel W)} {s t : XSys H} {x : Option (M (XSys H))}
    (e1 : xexec o l1 s = some (.ok t)) (e2 : xexec o l2 t = x) : xexec o (l1 ++ l2) s = x := by
  induction l1 generalizing s with
  | nil => cases e1; exact e2
  | cons l ls ih =>
    obtain ⟨u, e3, e4⟩ := xexec_cons e1
    simp only [List.cons_append, xexec, e3]
    exact ih e4

/-- invariants, under a condition on the labels -/
theorem xexec_inv {P : XLabel W → Prop} {I : XSys H → Prop}
    (hI : ∀ s l s', I s → P l → XStep o s l s' → I s') {ls : List (XLabel W)} {s s' : XSys H}
    (hs : I s) (hP : ∀ l ∈ ls, P l) (e : xexec o ls s = some (.ok s')) : I s' := by
  induction ls generalizing s with
  | nil => cases e; exact hs
  | cons l ls ih =>
    obtain ⟨t, e1, e2⟩ := xexec_cons e
    exact ih (hI _ _ _ hs (hP l (by simp)) (xstep_ok e1)) (fun l' h' => hP l' (by simp [h'])) e2

/-! ## Contents -/

/-- `μ` measures the contents of histograms, not diminished by `reset` -/
structure XMeasure (o : OwnerOps H W) (μ : H → Nat) (δ : W → Nat) : Prop extends Measure o.toHistOps μ δ where
  reset : ∀ h g, o.reset h = .ok g → μ g = μ h

/-- what a label adds -/
def xlabelSize (δ : W → Nat) : XLabel W → Nat
  | .now l | .late l _ => labelSize δ l
  | .own w => δ w
  | _ => 0

/-- the `SyncHistogram` exists -/
def Open (x : XSys H) : Prop := x.closed = false

theorem open_step {x x' : XSys H} {l : XLabel W} (I : Open x) (hl : l ≠ .close) (st : XStep o x l x') : Open x' := by
  cases st with
  | close => exact absurd rfl hl
  | now | late | own | reset => exact I

theorem deliver_open {x : XSys H} (h : Open x) (t : Sys H) : x.deliver t = { x with sys := t } := by
  unfold XSys.deliver
  rw [if_neg (by rw [show x.closed = false from h]; simp)]

theorem xtotal_step {μ : H → Nat} {δ : W → Nat} (m : XMeasure o μ δ) {x x' : XSys H} {l : XLabel W} (I : Open x)
    (hl : l ≠ .close) (st : XStep o x l x') : total μ x'.sys = total μ x.sys + xlabelSize δ l := by
  cases st with
  | now l t hn st =>
    rw [deliver_open I]
    exact total_step m.toMeasure st
  | late l p i r t hi hr hp hq st =>
    rw [deliver_open I]
    have := total_step m.toMeasure st
    exact this
  | own w h hc hr hw =>
    have := m.write _ _ _ hw
    unfold total xlabelSize
    dsimp only
    omega
  | reset h hc hr hw =>
    have := m.reset _ _ hw
    unfold total xlabelSize
    dsimp only
    omega
  | close => exact absurd rfl hl

theorem xtotal_exec {μ : H → Nat} {δ : W → Nat} (m : XMeasure o μ δ) {ls : List (XLabel W)} {x x' : XSys H} (I : Open x)
    (hl : XLabel.close ∉ ls) (e : xexec o ls x = some (.ok x')) :
    total μ x'.sys = total μ x.sys + (ls.map (xlabelSize δ)).sum := by
  induction ls generalizing x with
  | nil => cases e; simp
  | cons l ls ih =>
    obtain ⟨t, e1, e2⟩ := xexec_cons e
    have hne : l ≠ .close := fun h => hl (by simp [h])
    have h1 := ih (open_step I hne (xstep_ok e1)) (fun h => hl (by simp [h])) e2
    have h2 := xtotal_step m I hne (xstep_ok e1)
    simp only [List.map_cons, List.sum_cons]
    omega

/-- a dropped recorder holds nothing -/
theorem xgone_step {μ : H → Nat} {δ : W → Nat} (m : XMeasure o μ δ) {x x' : XSys H} {l : XLabel W}
    (I : ∀ r ∈ x.sys.recs, r.pc = .gone → μ r.loc = 0) (st : XStep o x l x') :
    ∀ r ∈ x'.sys.recs, r.pc = .gone → μ r.loc = 0 := by
  have del : ∀ t : Sys H, (x.deliver t).sys.recs = t.recs := by
    intro t; unfold XSys.deliver; dsimp only; split <;> rfl
  cases st with
  | now l t hn st => rw [del]; exact gone_step m.toMeasure I st
  | late l p i r t hi hr hp hq st => rw [del]; have := gone_step m.toMeasure (by exact I) st; exact this
  | own | reset | close => exact I

theorem xgone_exec {μ : H → Nat} {δ : W → Nat} (m : XMeasure o μ δ) {h : H} {ls : List (XLabel W)} {x : XSys H}
    (e : xexec o ls (XSys.init h) = some (.ok x)) : ∀ r ∈ x.sys.recs, r.pc = .gone → μ r.loc = 0 :=
  xexec_inv (P := fun _ => True) (I := fun x => ∀ r ∈ x.sys.recs, r.pc = .gone → μ r.loc = 0)
    (fun _ _ _ I _ st => xgone_step m I st) (by simp [XSys.init, Sys.init]) (fun _ _ => trivial) e

/-! ## The lists of writes -/

variable [DecidableEq W]

/-- how often an item occurs inside or among what was taken -/
theorem logged_measure (w : Option W) :
    XMeasure o.logged (fun h => h.inside.count w + h.taken.count w) (fun x => if some x = w then 1 else 0) where
  fresh := by
    intro h f e
    simp only [OwnerOps.logged] at e
    rw [M.bind_eq_ok] at e
    obtain ⟨x, -, e⟩ := e
    cases e; rfl
  add := by
    intro a b c e
    simp only [OwnerOps.logged] at e
    rw [M.bind_eq_ok] at e
    obtain ⟨x, -, e⟩ := e
    cases e; simp; omega
  write := by
    intro x h g e
    simp only [OwnerOps.logged] at e
    rw [M.bind_eq_ok] at e
    obtain ⟨y, -, e⟩ := e
    cases e
    simp only [List.count_append, List.count_cons, List.count_nil, beq_iff_eq]
    omega
  reset := by
    intro h g e
    simp only [OwnerOps.logged] at e
    rw [M.bind_eq_ok] at e
    obtain ⟨x, -, e⟩ := e
    cases e; simp; omega

theorem count_xwrites {w : Option W} {ls : List (XLabel W)} :
    ((xwrites ls).map some).count w = (ls.map (xlabelSize fun x => if some x = w then 1 else 0)).sum := by
  induction ls with
  | nil => rfl
  | cons l ls ih =>
    cases l with
    | now l =>
      cases l <;> simp only [xwrites, List.map_cons, List.sum_cons, xlabelSize, labelSize, List.count_cons, ih, beq_iff_eq] <;> omega
    | late l p =>
      cases l <;> simp only [xwrites, List.map_cons, List.sum_cons, xlabelSize, labelSize, List.count_cons, ih, beq_iff_eq] <;> omega
    | own | reset | close =>
      simp only [xwrites, List.map_cons, List.sum_cons, xlabelSize, List.count_cons, ih, beq_iff_eq]; omega

omit [DecidableEq W] in
/-- only the merged histogram is ever reset -/
theorem taken_step {x x' : XSys (Logged H W)} {l : XLabel W}
    (I : (∀ h ∈ x.sys.chan, h.taken = []) ∧ ∀ r ∈ x.sys.recs, r.loc.taken = []) (st : XStep o.logged x l x') :
    (∀ h ∈ x'.sys.chan, h.taken = []) ∧ ∀ r ∈ x'.sys.recs, r.loc.taken = [] := by
  have key : ∀ (s t : Sys (Logged H W)) (l : Label W),
      ((∀ h ∈ s.chan, h.taken = []) ∧ ∀ r ∈ s.recs, r.loc.taken = []) → Step o.logged.toHistOps s l t →
      (∀ h ∈ t.chan, h.taken = []) ∧ ∀ r ∈ t.recs, r.loc.taken = [] := by
    intro s t l I st
    have fr : ∀ a f : Logged H W, o.logged.fresh a = .ok f → f.taken = [] := by
      intro a f e
      simp only [OwnerOps.logged] at e
      rw [M.bind_eq_ok] at e
      obtain ⟨x, -, e⟩ := e
      cases e; rfl
    have wr : ∀ (w : W) (a f : Logged H W), o.logged.write w a = .ok f → f.taken = a.taken := by
      intro w a f e
      simp only [OwnerOps.logged] at e
      rw [M.bind_eq_ok] at e
      obtain ⟨x, -, e⟩ := e
      cases e; rfl
    obtain ⟨hc, hr⟩ := I
    cases st with
    | write i w r l hi hp hw =>
      exact ⟨hc, all_set hr (by dsimp only; rw [wr _ _ _ hw]; exact hr r (mem_of_get hi))⟩
    | writeSend i r p f hi hp hf => exact ⟨mem_snoc hc (hr r (mem_of_get hi)), all_set hr (fr _ _ hf)⟩
    | recorder f hlk hrd hf => exact ⟨hc, all_append hr (fr _ _ hf)⟩
    | clone i r f hi hlk hp hf => exact ⟨hc, all_append hr (fr _ _ hf)⟩
    | dropSend i r f hi hp hf => exact ⟨mem_snoc hc (hr r (mem_of_get hi)), all_set hr (fr _ _ hf)⟩
    | idleSend i r p f hi hp hf => exact ⟨mem_snoc hc (hr r (mem_of_get hi)), all_set hr (fr _ _ hf)⟩
    | drop i r hi | idle i r hi | idlePhaseNew i r hi | idlePhaseOld i r hi | wake i r hi | wakePhase i r hi
    | forget i r hi => exact ⟨hc, all_set hr (hr r (mem_of_get hi))⟩
    | drain t h rest m hrd he ha => exact ⟨fun y hy => hc y (by rw [he]; simp [hy]), hr⟩
    | recv t n k h rest m hrd hk he ha => exact ⟨fun y hy => hc y (by rw [he]; simp [hy]), hr⟩
    | finalRecv h rest m hrd he ha => exact ⟨fun y hy => hc y (by rw [he]; simp [hy]), hr⟩
    | start | drainEnd | count | bump | timeout | waitEnd | finalEnd => exact ⟨hc, hr⟩
  have del : ∀ t : Sys (Logged H W), ((∀ h ∈ t.chan, h.taken = []) ∧ ∀ r ∈ t.recs, r.loc.taken = []) →
      (∀ h ∈ (x.deliver t).sys.chan, h.taken = []) ∧ ∀ r ∈ (x.deliver t).sys.recs, r.loc.taken = [] := by
    intro t ht; unfold XSys.deliver; dsimp only; split
    · exact ⟨by simp, ht.2⟩
    · exact ht
  cases st with
  | now l t hn st => exact del _ (key _ _ _ I st)
  | late l p i r t hi hr hp hq st => have := key _ _ _ (by exact I) st; exact del _ this
  | own | reset => exact I
  | close => exact ⟨by simp, I.2⟩

theorem count_inChan {w : Option W} {x : XSys (Logged H W)} (h : ∀ h ∈ x.sys.chan, h.taken = []) :
    x.inChan.count w = (x.sys.chan.map fun h => h.inside.count w + h.taken.count w).sum := by
  unfold XSys.inChan
  rw [List.count_flatMap]
  congr 1
  apply List.map_congr_left
  intro a ha
  simp [h a ha]

theorem count_inLocal {w : Option W} {p : Pc → Bool} {x : XSys (Logged H W)} (h : ∀ r ∈ x.sys.recs, r.loc.taken = []) :
    (x.inLocal p).count w = sumR (fun r => if p r.pc then r.loc.inside.count w + r.loc.taken.count w else 0) x.sys.recs := by
  unfold XSys.inLocal
  rw [List.count_flatMap]
  generalize x.sys.recs = l at h
  induction l with
  | nil => rfl
  | cons y ys ih =>
    have h1 := h y (by simp)
    have ih := ih fun r hr => h r (by simp [hr])
    simp only [sumR, List.map_cons, List.sum_cons] at *
    rw [List.filter_cons]
    split
    · rw [List.map_cons, List.sum_cons, ih]
      simp only [Function.comp_apply, h1, List.count_nil, Nat.add_zero]
    · rw [ih]; omega

theorem xconserved {h : H} {ls : List (XLabel W)} {x : XSys (Logged H W)} (hl : XLabel.close ∉ ls)
    (e : xexec o.logged ls (XSys.start h) = some (.ok x)) (w : Option W) :
    x.sys.merged.inside.count w + x.sys.merged.taken.count w + x.inChan.count w + (x.inLocal Pc.live).count w =
      (none :: (xwrites ls).map some).count w := by
  have h1 := xtotal_exec (logged_measure (o := o) w) (show Open (XSys.start h) from rfl) hl e
  have h2 := xgone_exec (logged_measure (o := o) w) e
  have h3 := xexec_inv (P := fun _ => True)
    (I := fun x : XSys (Logged H W) => (∀ h ∈ x.sys.chan, h.taken = []) ∧ ∀ r ∈ x.sys.recs, r.loc.taken = [])
    (fun _ _ _ I _ st => taken_step I st) (by simp [XSys.start, XSys.init, Sys.init]) (fun _ _ => trivial) e
  rw [count_inChan h3.1, count_inLocal h3.2, List.count_cons, count_xwrites,
    ← sumR_congr (f := fun r => r.loc.inside.count w + r.loc.taken.count w)]
  · simp only [total, XSys.start, XSys.init, Sys.init, sumR_nil] at h1
    simp only [List.map_nil, List.sum_nil, List.count_cons, List.count_nil] at h1
    omega
  · intro r hr
    split
    · rfl
    · rename_i hc
      refine h2 r hr ?_
      cases hp : r.pc <;> simp_all [Pc.live]

end Hdr.Sync
