import Verif.Proofs.SyncPanic

/-!
# Caught panics in concurrent recording: the histograms of the real code
-/

namespace Hdr.Sync

variable {H W : Type} {o : HistOps H W}

/-! ## Without leaked guards the count is right and the mutex is not poisoned -/

/-- the mutex is not poisoned and the count is right -/
def PSound (x : PSys H) : Prop := x.poisoned = false ∧ x.sys.recorders = sumR countOf x.sys.recs ∧ LockInv x.sys

theorem sound_init {h : H} : PSound (PSys.init h) := ⟨rfl, rfl, lock_init⟩

theorem counted_pos {s : Sys H} {i : Nat} {r : Rec H} (N : s.recorders = sumR countOf s.recs) (hr : s.recs[i]? = some r)
    (hp : r.pc = .ready) : s.recorders ≠ 0 := by
  have h1 := sumR_le_of_mem (f := countOf) (mem_of_get hr)
  have h2 : countOf r = 1 := by unfold countOf; rw [hp]; rfl
  omega

theorem sound_step {x x' : PSys H} {l : Label W} (S : PSound x) (hl : ∀ i, l ≠ .forget i) (st : PStep o x l x') :
    PSound x' := by
  obtain ⟨hp, N, L⟩ := S
  cases st with
  | ok l s _ h =>
    have st := step_ok h
    have nf : NotForget x.sys l := by cases l <;> first | trivial | exact absurd rfl (hl _)
    exact ⟨hp, Nat.le_antisymm (count_le_step N.le st) (count_ge_step N.ge nf st), lock_step L st⟩
  | merge l p h rest _ _ _ => exact ⟨hp, N, L⟩
  | drop i r hr hpc _ h0 => exact absurd h0 (counted_pos N hr hpc)
  | idle i r hr hpc _ h0 => exact absurd h0 (counted_pos N hr hpc)
  | stay _ h | lateDrop _ _ h | lateWake _ _ h | lateCount _ h => rw [hp] at h; cases h

theorem sound_exec {h : H} {ls : List (Label W)} {x : PSys H} (hf : ∀ i, Label.forget i ∉ ls)
    (e : pexec o ls (PSys.init h) = some x) : PSound x :=
  pexec_inv (P := fun l => ∀ i, l ≠ .forget i) (fun _ _ _ S hl st => sound_step S hl st) sound_init
    (fun _ hl i hc => hf i (hc ▸ hl)) e

/-- without leaked guards a dropped recorder holds nothing -/
theorem pgone_exec {μ : H → Nat} {δ : W → Nat} (m : Measure o μ δ) {h : H} {ls : List (Label W)} {x : PSys H}
    (hf : ∀ i, Label.forget i ∉ ls) (e : pexec o ls (PSys.init h) = some x) :
    ∀ r ∈ x.sys.recs, r.pc = .gone → μ r.loc = 0 := by
  refine (pexec_inv (P := fun l => ∀ i, l ≠ .forget i)
    (I := fun x : PSys H => PSound x ∧ ∀ r ∈ x.sys.recs, r.pc = .gone → μ r.loc = 0)
    (fun x _ x' I hl st => ⟨sound_step I.1 hl st, ?_⟩) ⟨sound_init, by simp [PSys.init, Sys.init]⟩
    (fun l hl i hc => hf i (hc ▸ hl)) e).2
  obtain ⟨⟨hp, N, -⟩, G⟩ := I
  cases st with
  | ok l s _ h => exact gone_step m G (step_ok h)
  | merge l p h rest _ _ _ => exact G
  | drop i r hr hpc _ h0 => exact absurd h0 (counted_pos N hr hpc)
  | idle i r hr hpc _ h0 => exact absurd h0 (counted_pos N hr hpc)
  | stay _ h | lateDrop _ _ h | lateWake _ _ h | lateCount _ h => rw [hp] at h; cases h

/-! ## Histograms whose merges may fail -/

/-- as `Fine`, but `add` may fail, on histograms with `Pe` -/
structure Mild (o : HistOps H W) (okW : W → Prop) (Pm Pl Pe : H → Prop) : Prop where
  freshM : ∀ h, Pm h → ∃ f, o.fresh h = .ok f ∧ Pl f
  freshL : ∀ h, Pl h → ∃ f, o.fresh h = .ok f ∧ Pl f
  add : ∀ m h, Pm m → Pl h → (∃ x, o.add m h = .ok x ∧ Pm x ∧ ¬ Pe h) ∨ (∃ p, o.add m h = .error p ∧ Pe h)
  write : ∀ w h, okW w → Pl h → ∃ x, o.write w h = .ok x ∧ Pl x

/-- failed merges are ignored -/
def HistOps.lenient (o : HistOps H W) : HistOps H W where
  fresh := o.fresh
  add m h := match o.add m h with
    | .ok x => .ok x
    | .error _ => .ok m
  write := o.write

theorem Mild.fine {okW : W → Prop} {Pm Pl Pe : H → Prop} (F : Mild o okW Pm Pl Pe) : Fine o.lenient okW Pm Pl where
  freshM := F.freshM
  freshL := F.freshL
  add m h hm hh := by
    rcases F.add m h hm hh with ⟨x, e, hx, -⟩ | ⟨p, e, -⟩
    · exact ⟨x, by simp only [HistOps.lenient, e], hx⟩
    · exact ⟨m, by simp only [HistOps.lenient, e], hm⟩
  write := F.write

theorem lenient_step {s s' : Sys H} {l : Label W} (st : Step o s l s') : Step o.lenient s l s' := by
  have ad : ∀ {m h x}, o.add m h = .ok x → o.lenient.add m h = .ok x := fun e => by simp only [HistOps.lenient, e]
  cases st with
  | write i w r l h1 h2 h3 => exact .write i w r l h1 h2 h3
  | writeSend i r p f h1 h2 h3 => exact .writeSend i r p f h1 h2 h3
  | recorder f h1 h2 h3 => exact .recorder f h1 h2 h3
  | clone i r f h1 h2 h3 h4 => exact .clone i r f h1 h2 h3 h4
  | drop i r h1 h2 h3 h4 => exact .drop i r h1 h2 h3 h4
  | dropSend i r f h1 h2 h3 => exact .dropSend i r f h1 h2 h3
  | idle i r h1 h2 h3 h4 => exact .idle i r h1 h2 h3 h4
  | idlePhaseNew i r h1 h2 h3 => exact .idlePhaseNew i r h1 h2 h3
  | idlePhaseOld i r h1 h2 h3 => exact .idlePhaseOld i r h1 h2 h3
  | idleSend i r p f h1 h2 h3 => exact .idleSend i r p f h1 h2 h3
  | wake i r h1 h2 h3 => exact .wake i r h1 h2 h3
  | wakePhase i r h1 h2 => exact .wakePhase i r h1 h2
  | forget i r h1 h2 => exact .forget i r h1 h2
  | start t h1 => exact .start t h1
  | drain t h rest m h1 h2 h3 => exact .drain t h rest m h1 h2 (ad h3)
  | drainEnd t h1 h2 => exact .drainEnd t h1 h2
  | count t h1 h2 => exact .count t h1 h2
  | bump t n h1 => exact .bump t n h1
  | recv t n k h rest m h1 h2 h3 h4 => exact .recv t n k h rest m h1 h2 h3 (ad h4)
  | timeout n k h1 h2 => exact .timeout n k h1 h2
  | waitEnd t n k h1 h2 => exact .waitEnd t n k h1 h2
  | finalRecv h rest m h1 h2 h3 => exact .finalRecv h rest m h1 h2 (ad h3)
  | finalEnd h1 h2 => exact .finalEnd h1 h2

theorem receive_error {s : Sys H} {next : Reader} {p : Panic} (e : receive o s next = some (.error p)) :
    ∃ h rest, s.chan = h :: rest ∧ o.add s.merged h = .error p := by
  unfold receive at e
  split at e
  · rename_i h rest hc
    refine ⟨h, rest, hc, ?_⟩
    cases ha : o.add s.merged h with
    | ok m => rw [ha] at e; cases e
    | error q => rw [ha] at e; cases e; rfl
  · cases e

/-- what can panic: the merges, and the decrements of the recorder count -/
theorem mild_error {okW : W → Prop} {Pm Pl Pe : H → Prop} (F : Mild o okW Pm Pl Pe) {s : Sys H} {l : Label W} {p : Panic}
    (A : AllP Pm Pl s) (hl : okLabel okW l) (e : step o s l = some (.error p)) :
    (s.reader.takes l ∧ ∃ h rest, s.chan = h :: rest ∧ o.add s.merged h = .error p) ∨
      (s.recorders = 0 ∧ ∃ i r, (l = .drop i ∨ l = .idle i) ∧ s.recs[i]? = some r ∧ r.pc = .ready) := by
  have no : ∀ {P : Prop}, noMore s .out = some (.error p) ∨ (∃ n, noMore s n = some (.error p)) → P := by
    rintro P (h | ⟨n, h⟩)
    · exact absurd h noMore_safe
    · exact absurd h noMore_safe
  cases l with
  | write i w =>
    obtain ⟨r, hr, hp, e⟩ := at_some e
    obtain ⟨x, ex, -⟩ := F.write w r.loc hl (A.2.2 r (mem_of_get hr))
    rw [ex] at e; cases e
  | writeSend i =>
    simp only [step, writeSend] at e
    split at e
    · rename_i r hr
      obtain ⟨x, ex, -⟩ := F.freshL r.loc (A.2.2 r (mem_of_get hr))
      split at e
      · rw [ex] at e; cases e
      · cases e
    · cases e
  | recorder =>
    simp only [step, recorder] at e
    obtain ⟨x, ex, -⟩ := F.freshM s.merged A.1
    split at e
    · rw [ex] at e; cases e
    · cases e
  | clone i =>
    simp only [step, clone] at e
    split at e
    · rename_i r hr
      obtain ⟨x, ex, -⟩ := F.freshL r.loc (A.2.2 r (mem_of_get hr))
      split at e
      · rw [ex] at e; cases e
      · cases e
    · cases e
  | drop i =>
    obtain ⟨r, hr, hp, -, h0⟩ := drop_error e
    exact Or.inr ⟨h0, i, r, Or.inl rfl, hr, hp⟩
  | dropSend i =>
    obtain ⟨r, hr, hp, e⟩ := at_some e
    obtain ⟨x, ex, -⟩ := F.freshL r.loc (A.2.2 r (mem_of_get hr))
    rw [ex] at e; cases e
  | idle i =>
    obtain ⟨r, hr, hp, -, h0⟩ := idle_error e
    exact Or.inr ⟨h0, i, r, Or.inr rfl, hr, hp⟩
  | idlePhase i =>
    obtain ⟨r, hr, hp, e⟩ := at_some e
    dsimp only at e
    split at e <;> cases e
  | idleSend i =>
    simp only [step, idleSend] at e
    split at e
    · rename_i r hr
      obtain ⟨x, ex, -⟩ := F.freshL r.loc (A.2.2 r (mem_of_get hr))
      split at e
      · rw [ex] at e; cases e
      · cases e
    · cases e
  | wake i =>
    obtain ⟨r, hr, hp, e⟩ := at_some e
    dsimp only at e
    split at e <;> cases e
  | wakePhase i =>
    obtain ⟨r, hr, hp, e⟩ := at_some e
    cases e
  | forget i =>
    obtain ⟨r, hr, hp, e⟩ := at_some e
    cases e
  | start t =>
    simp only [step, start] at e
    split at e <;> cases e
  | drain =>
    simp only [step, drain] at e
    split at e
    · rename_i t ht; exact Or.inl ⟨by rw [ht]; trivial, receive_error e⟩
    · cases e
  | drainEnd =>
    simp only [step, drainEnd] at e
    split at e
    · exact no (Or.inr ⟨_, e⟩)
    · cases e
  | count =>
    simp only [step, count] at e
    split at e
    · split at e <;> cases e
    · cases e
  | bump =>
    simp only [step, bump] at e
    split at e <;> cases e
  | recv =>
    simp only [step, recv] at e
    split at e
    · rename_i t n k ht
      split at e
      · rename_i hk; exact Or.inl ⟨by rw [ht]; exact hk, receive_error e⟩
      · cases e
    · cases e
  | timeout =>
    simp only [step, timeout] at e
    split at e
    · split at e <;> cases e
    · cases e
  | waitEnd =>
    simp only [step, waitEnd] at e
    split at e
    · split at e <;> cases e
    · cases e
  | finalRecv =>
    simp only [step, finalRecv] at e
    split at e
    · rename_i ht; exact Or.inl ⟨by rw [ht]; trivial, receive_error e⟩
    · cases e
  | finalEnd =>
    simp only [step, finalEnd] at e
    split at e
    · exact no (Or.inr ⟨_, e⟩)
    · cases e

/-- a step that takes a histogram merges it -/
theorem takes_step {s : Sys H} {l : Label W} (h : s.reader.takes l) : ∃ next, step o s l = receive o s next := by
  cases hr : s.reader with
  | out | count | counted => rw [hr] at h; cases l <;> exact h.elim
  | drain t =>
    rw [hr] at h
    cases l <;> first | exact h.elim | exact ⟨_, by simp only [step, drain, hr]; rfl⟩
  | wait t n k =>
    rw [hr] at h
    cases l <;> first | exact h.elim | exact ⟨_, by simp only [step, recv, hr]; exact if_pos h⟩
  | final =>
    rw [hr] at h
    cases l <;> first | exact h.elim | exact ⟨_, by simp only [step, finalRecv, hr]; rfl⟩

/-- the histograms, and those lost -/
def PAll (Pm Pl Pe : H → Prop) (x : PSys H) : Prop := AllP Pm Pl x.sys ∧ ∀ h ∈ x.lost, Pl h ∧ Pe h

theorem pall_step {okW : W → Prop} {Pm Pl Pe : H → Prop} (F : Mild o okW Pm Pl Pe) {x x' : PSys H} {l : Label W}
    (A : PAll Pm Pl Pe x) (hl : okLabel okW l) (st : PStep o x l x') : PAll Pm Pl Pe x' := by
  obtain ⟨A, B⟩ := A
  cases st with
  | ok l s _ h => exact ⟨fine_ok F.fine A hl (lenient_step (step_ok h)), B⟩
  | merge l p h rest hr he hc =>
    have hh : Pl h := A.2.1 h (by rw [hc]; simp)
    refine ⟨⟨A.1, fun y hy => A.2.1 y (by rw [hc]; simp [hy]), A.2.2⟩, fun y hy => ?_⟩
    rcases List.mem_append.mp hy with hy | hy
    · exact B y hy
    · cases List.mem_singleton.mp hy
      refine ⟨hh, ?_⟩
      rcases mild_error F A hl he with ⟨-, h', rest', hc', ha⟩ | ⟨-, i, r, h1, -⟩
      · rw [hc] at hc'; cases hc'
        rcases F.add _ _ A.1 hh with ⟨y, ey, -⟩ | ⟨q, -, hq⟩
        · rw [ey] at ha; cases ha
        · exact hq
      · rcases h1 with rfl | rfl <;> cases hr
  | drop i r hr _ _ _ => exact ⟨⟨A.1, A.2.1, all_set A.2.2 (A.2.2 r (mem_of_get hr))⟩, B⟩
  | idle i r _ _ _ _ => exact ⟨A, B⟩
  | stay => exact ⟨A, B⟩
  | lateDrop i r _ _ hr _ => exact ⟨⟨A.1, A.2.1, all_set A.2.2 (A.2.2 r (mem_of_get hr))⟩, B⟩
  | lateWake i r _ _ hr _ => exact ⟨⟨A.1, A.2.1, all_set A.2.2 (A.2.2 r (mem_of_get hr))⟩, B⟩
  | lateCount t _ _ => exact ⟨A, B⟩

theorem pall_exec {okW : W → Prop} {Pm Pl Pe : H → Prop} (F : Mild o okW Pm Pl Pe) {h : H} {ls : List (Label W)} {x : PSys H}
    (h0 : Pm h) (hl : ∀ l ∈ ls, okLabel okW l) (e : pexec o ls (PSys.init h) = some x) : PAll Pm Pl Pe x :=
  pexec_inv (P := okLabel okW) (fun _ _ _ A hl st => pall_step F A hl st)
    ⟨⟨h0, by simp [PSys.init, Sys.init], by simp [PSys.init, Sys.init]⟩, by simp [PSys.init]⟩ hl e

/-! ## The real histograms -/

variable {T : CounterTy} {fp : Fp}

/-- the merge of this histogram fails -/
def Fatal (h0 x : Hist T) : Prop := h0.autoResize = false ∧ x.totalCount ≠ 0 ∧ x.lmax = U64MAX

theorem recordSeq_high {l : List (Nat × Nat)} {h g : Hist T} {r : Except RecordError Unit} (W : WF fp h)
    (ha : h.autoResize = false) (hv : ∀ p ∈ l, p.1 ≤ U64MAX ∧ p.2 ≤ T.max) (e : recordSeq l h = .ok (g, r)) :
    g.highestTrackable = h.highestTrackable := by
  induction l generalizing h with
  | nil => cases e; rfl
  | cons p l ih =>
    obtain ⟨v, c⟩ := p
    have hvc : v ≤ U64MAX ∧ c ≤ T.max := hv (v, c) (by simp)
    rw [recordSeq_cons, W.recordN_eq hvc.1 hvc.2] at e
    by_cases hc : h.lidx v < h.counts.length ∨ h.autoResize = true
    · have hcov : h.lidx v < h.counts.length := hc.resolve_right (by rw [ha]; simp)
      rw [if_pos hc, M.ok_bind] at e
      have hg : h.growTo v = h := by unfold Hist.growTo; rw [if_pos hcov]
      rw [hg] at e
      have := ih (W.recorded hvc.1 hcov) (by exact ha) (fun p hp => hv p (by simp [hp])) e
      exact this
    · rw [if_neg hc, M.ok_bind] at e
      cases e; rfl

theorem base_seq {h0 x : Hist T} (B : Base fp h0 false x) {l : List (Nat × Nat)}
    (hv : ∀ p ∈ l, p.1 ≤ U64MAX ∧ p.2 ≤ T.max) : ∃ y r, recordSeq l x = .ok (y, r) ∧ Base fp h0 false y := by
  obtain ⟨y, r, e, Wy, hr⟩ := B.wf.recordSeq_spec l hv
  have E : ∃ l', SeqEffect x l' y := by
    cases r with
    | ok u => exact ⟨l, hr.1⟩
    | error q =>
      obtain ⟨-, -, l1, p, l2, -, E, -⟩ := hr
      exact ⟨l1, E⟩
  obtain ⟨l', E⟩ := E
  exact ⟨y, r, e, Wy, B.cfg.trans E.cfg, le_trans B.len E.len,
    fun ha => (recordSeq_high B.wf (B.cfg.auto.trans ha) hv e).trans (B.high ha), fun h => by cases h⟩

theorem base_added {h0 x g : Hist T} (Wg : WF fp g) (B : Base fp h0 false x) :
    ∃ y r, x.add g = .ok (y, r) ∧ Base fp h0 false y := by
  obtain ⟨y, r, e, Wy, hr⟩ := B.wf.add_spec Wg
  refine ⟨y, r, e, ?_⟩
  cases r with
  | error q =>
    cases q with
    | OtherAddendValueExceedsRange => rw [hr.2.2.2]; exact B
    | ResizeFailedUsizeTypeTooSmall => exact hr.elim
  | ok u =>
    rcases hr with ⟨-, rfl⟩ | ⟨-, hres, hcfg, hlen, hhigh, -⟩
    · exact B
    · obtain ⟨-, -, -, -, -, -, -, hle, -⟩ := B.wf.addGrown (s := g)
      refine ⟨Wy, B.cfg.trans hcfg, by rw [hlen]; exact le_trans B.len hle, fun ha => ?_, fun h => by cases h⟩
      rw [hhigh, ← B.high ha]
      unfold Hist.addGrown
      rw [if_neg]
      intro hlt
      have := hres hlt
      rw [B.cfg.auto, ha] at this; cases this

theorem mild_write {h0 x : Hist T} {w : Write T} (hw : w.Typed fp) (B : Base fp h0 false x) :
    ∃ y, w.run x = .ok y ∧ Base fp h0 false y := by
  cases w with
  | recordN v c =>
    obtain ⟨y, r, e, By⟩ := base_seq (l := [(v, c)]) B (by intro p hp; cases List.mem_singleton.mp hp; exact hw)
    exact ⟨y, by simp only [Write.run]; rw [recordN_seq, e]; rfl, By⟩
  | recordNCorrect v c i =>
    obtain ⟨y, r, e, By⟩ := base_seq (l := (v :: hiddenSeries v i).map fun x => (x, c)) B (correct_valid hw.1 hw.2)
    exact ⟨y, by simp only [Write.run]; rw [recordNCorrect_eq, e]; rfl, By⟩
  | saturatingRecordN v c =>
    refine ⟨x.recorded (x.clampTo v) c, ?_, ?_, B.cfg.trans ⟨rfl, rfl, rfl, rfl, rfl⟩, ?_, B.high, fun h => by cases h⟩
    · simp only [Write.run]; rw [B.wf.saturatingRecordN_eq hw.1]
    · exact B.wf.recorded (B.wf.clampTo_le hw.1) (B.wf.clampTo_cov _)
    · simpa [Hist.recorded] using B.len
  | add g =>
    obtain ⟨y, r, e, By⟩ := base_added (Reachable.wf hw) B
    exact ⟨y, by simp only [Write.run, e]; rfl, By⟩
  | addCorrect g i =>
    have Wg : WF fp g := Reachable.wf hw
    obtain ⟨y, r, e, By⟩ := base_seq (l := correctedAll i (g.recItems g.counts 0 0)) B (Wg.corrected_valid i)
    exact ⟨y, by simp only [Write.run]; rw [Wg.addCorrect_eq, e]; rfl, By⟩
  | subtract g =>
    obtain ⟨y, r, e, Wy, Ly, -⟩ := B.wf.subtract_full (Reachable.wf hw)
    refine ⟨y, ?_, Wy, B.cfg.trans ?_, ?_, ?_, fun h => by cases h⟩
    · simp only [Write.run, e]; rfl
    · rw [Ly.same]; exact ⟨rfl, rfl, rfl, rfl, rfl⟩
    · rw [Ly.len]; exact B.len
    · intro h; rw [Ly.same]; exact B.high h

theorem mild_add {h0 m x : Hist T} (hm : Base fp h0 false m) (hx : Base fp h0 false x) :
    (∃ y, addExpect m x = .ok y ∧ Base fp h0 false y ∧ ¬ Fatal h0 x) ∨
      ∃ p, addExpect m x = .error p ∧ Fatal h0 x := by
  have hcfg : SameConfig m x :=
    ⟨hx.cfg.auto.trans hm.cfg.auto.symm, hx.cfg.low.trans hm.cfg.low.symm, hx.cfg.sig.trans hm.cfg.sig.symm,
      hx.cfg.um.trans hm.cfg.um.symm, hx.cfg.mag.trans hm.cfg.mag.symm⟩
  have top : h0.autoResize = false → (m.ltop < x.lmax ↔ x.lmax = U64MAX) := fun ha =>
    hm.wf.same_ltop hx.wf hcfg.low.symm (by unfold Hist.high; rw [hm.high ha, hx.high ha]) hcfg.sig.symm
  obtain ⟨y, r, e, Wy, hr⟩ := hm.wf.add_spec hx.wf
  unfold addExpect
  cases r with
  | error q =>
    cases q with
    | OtherAddendValueExceedsRange =>
      have ha : h0.autoResize = false := hm.cfg.auto.symm.trans hr.2.1
      exact Or.inr ⟨.expect, by rw [e]; rfl, ha, hr.1, (top ha).mp hr.2.2.1⟩
    | ResizeFailedUsizeTypeTooSmall => exact hr.elim
  | ok u =>
    left
    refine ⟨y, by rw [e]; rfl, ?_, ?_⟩
    · obtain ⟨z, r, ez, Bz⟩ := base_added hx.wf hm
      rw [e] at ez; cases ez; exact Bz
    · rintro ⟨ha, hne, hmax⟩
      rcases hr with ⟨h0', -⟩ | ⟨-, hres, -⟩
      · exact hne h0'
      · have := hres ((top ha).mpr hmax)
        rw [hm.cfg.auto, ha] at this; cases this

theorem hist_mild {h0 : Hist T} (W : WF fp h0) :
    Mild (HistOps.concrete fp T) (Write.Typed fp) (Base fp h0 false) (Base fp h0 false) (Fatal h0) where
  freshM _ hh := by
    obtain ⟨y, e, By⟩ := base_fresh W hh
    exact ⟨y, e, By.wf, By.cfg, By.len, By.high, fun h => by cases h⟩
  freshL _ hh := by
    obtain ⟨y, e, By⟩ := base_fresh W hh
    exact ⟨y, e, By.wf, By.cfg, By.len, By.high, fun h => by cases h⟩
  add _ _ hm hh := mild_add hm hh
  write _ _ hw hh := mild_write hw hh

theorem typed_ok {ls : List (Label (Write T))} (h : TypedLabels fp ls) : ∀ l ∈ ls, okLabel (Write.Typed fp) l := by
  intro l hl
  cases l <;> first | trivial | exact h _ _ hl

theorem hist_pall {h0 : Hist T} (W : WF fp h0) {ls : List (Label (Write T))} {x : PSys (Hist T)} (ht : TypedLabels fp ls)
    (e : pexec (HistOps.concrete fp T) ls (PSys.init h0) = some x) :
    PAll (Base fp h0 false) (Base fp h0 false) (Fatal h0) x := pall_exec (hist_mild W) (base_init W) (typed_ok ht) e

end Hdr.Sync
