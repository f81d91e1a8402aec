import Verif.Spec.SyncUnsent
import Verif.Props.Sync

/-!
# Concurrent recording without conditions: the recorder count (C50) and what a refresh misses (C48)
-/

namespace Hdr

open Hdr.Sync

variable {H W : Type} {o : HistOps H W}

/-- the leaks of one step -/
def leakOf : Label W → Nat
  | .forget _ => 1
  | _ => 0

theorem leaks_cons (l : Label W) (ls : List (Label W)) : leaks (l :: ls) = leakOf l + leaks ls := by
  cases l <;> simp [leaks, leakOf, Nat.add_comm]

theorem count_exact_step {s s' : Sys H} {l : Label W} {k : Nat} (I : s.recorders + k = sumR countOf s.recs)
    (st : Step o s l s') : s'.recorders + (k + leakOf l) = sumR countOf s'.recs := by
  cases st with
  | write i w r l hr hp hw =>
    have := sumR_set (f := countOf) (a := { r with loc := l, pc := if s.phase ≠ r.lastPhase then .send s.phase else .ready }) hr
    have h1 : countOf r = 1 := by simp [countOf, hp, Pc.counted]
    have h2 : countOf { r with loc := l, pc := if s.phase ≠ r.lastPhase then .send s.phase else .ready } = 1 := by
      unfold countOf; dsimp only; split <;> simp_all [Pc.counted]
    simp only [Sys.put, leakOf] at *
    omega
  | recorder f hl hrd hf => simp only [sumR_append, countOf, Pc.counted, leakOf] at *; simp; omega
  | clone i r f hr hl hp hf => simp only [sumR_append, countOf, Pc.counted, leakOf] at *; simp; omega
  | writeSend i r p f hr hp hf =>
    have := sumR_set (f := countOf) (a := { loc := f, lastPhase := p, pc := .ready }) hr
    simp only [Sys.put, countOf, hp, Pc.counted, leakOf] at *; simp at *; omega
  | drop i r hr hp hl h1 =>
    have := sumR_set (f := countOf) (a := { r with pc := .dropSend }) hr
    simp only [Sys.put, countOf, hp, Pc.counted, leakOf] at *; simp at *; omega
  | dropSend i r f hr hp hf =>
    have := sumR_set (f := countOf) (a := { r with loc := f, pc := .gone }) hr
    simp only [Sys.put, countOf, hp, Pc.counted, leakOf] at *; simp at *; omega
  | idle i r hr hp hl h1 =>
    have := sumR_set (f := countOf) (a := { r with pc := .idlePhase }) hr
    simp only [Sys.put, countOf, hp, Pc.counted, leakOf] at *; simp at *; omega
  | idlePhaseNew i r hr hp hne =>
    have := sumR_set (f := countOf) (a := { r with pc := .idleSend s.phase }) hr
    simp only [Sys.put, countOf, hp, Pc.counted, leakOf] at *; simp at *; omega
  | idlePhaseOld i r hr hp he =>
    have := sumR_set (f := countOf) (a := { r with lastPhase := s.phase, pc := .idle }) hr
    simp only [Sys.put, countOf, hp, Pc.counted, leakOf] at *; simp at *; omega
  | idleSend i r p f hr hp hf =>
    have := sumR_set (f := countOf) (a := { loc := f, lastPhase := p, pc := .idle }) hr
    simp only [Sys.put, countOf, hp, Pc.counted, leakOf] at *; simp at *; omega
  | wake i r hr hp hl =>
    have := sumR_set (f := countOf) (a := { r with pc := .wakePhase }) hr
    simp only [Sys.put, countOf, hp, Pc.counted, leakOf] at *; simp at *; omega
  | wakePhase i r hr hp =>
    have := sumR_set (f := countOf) (a := { r with lastPhase := s.phase, pc := .ready }) hr
    simp only [Sys.put, countOf, hp, Pc.counted, leakOf] at *; simp at *; omega
  | forget i r hr hp =>
    have := sumR_set (f := countOf) (a := { r with pc := .ready }) hr
    simp only [Sys.put, countOf, hp, Pc.counted, leakOf] at *; simp at *; omega
  | start | drain | drainEnd | count | bump | recv | timeout | waitEnd | finalRecv | finalEnd => exact I

theorem count_exact {ls : List (Label W)} {s s' : Sys H} {k : Nat}
    (I : s.recorders + k = sumR countOf s.recs ∧ LockInv s) (e : exec o ls s = some (.ok s')) :
    s'.recorders + (k + leaks ls) = sumR countOf s'.recs ∧ LockInv s' := by
  induction ls generalizing s k with
  | nil => cases e; exact I
  | cons l ls ih =>
    obtain ⟨t, e1, e2⟩ := exec_cons e
    have st := step_ok e1
    have := ih ⟨count_exact_step I.1 st, lock_step I.2 st⟩ e2
    rw [leaks_cons]
    exact ⟨by rw [← this.1]; omega, this.2⟩

/-- C50 (2), without conditions: in every execution the recorder count is, whenever the lock is free, the number of
recorders that exist and are not idle, less one for every guard that was leaked; and `drop` and `idle` panic exactly if
as many guards have been leaked as there are such recorders. -/
theorem C50_exact (h : H) (ls : List (Label W)) (s : Sys H) (e : exec o ls (Sys.init h) = some (.ok s))
    (hl : s.lock = none) :
    s.recorders + leaks ls = (s.recs.filter (·.pc.active)).length ∧
      ∀ i r, s.recs[i]? = some r → r.pc = .ready →
        ((∃ p, step o s (.drop i) = some (.error p)) ↔ leaks ls = (s.recs.filter (·.pc.active)).length) ∧
        ((∃ p, step o s (.idle i) = some (.error p)) ↔ leaks ls = (s.recs.filter (·.pc.active)).length) := by
  obtain ⟨hc, L⟩ := count_exact (o := o) (k := 0) (s := Sys.init h) ⟨rfl, lock_init⟩ e
  have key : s.recorders + leaks ls = (s.recs.filter (·.pc.active)).length := by
    rw [length_filter_eq_sumR, ← Nat.zero_add (leaks ls), hc]
    apply sumR_congr
    intro r hr
    obtain ⟨i, hi⟩ := List.getElem?_of_mem hr
    have := L.none_of_lock hl i r hi
    unfold countOf
    cases hp : r.pc <;> simp_all [Pc.holds, Pc.counted, Pc.active]
  refine ⟨key, fun i r hr hp => ?_⟩
  have hd : step o s (.drop i) = some (do
      let n ← subU s.recorders 1
      pure { s.put i { r with pc := .dropSend } with recorders := n, lock := some i }) := by
    simp only [step, Sync.drop, Sys.at, hr]
    rw [if_pos hp, if_pos hl]
  have hi : step o s (.idle i) = some (do
      let n ← subU s.recorders 1
      pure { s.put i { r with pc := .idlePhase } with recorders := n, lock := some i }) := by
    simp only [step, Sync.idle, Sys.at, hr]
    rw [if_pos hp, if_pos hl]
  rw [hd, hi]
  by_cases hz : s.recorders = 0
  · have : leaks ls = (s.recs.filter (·.pc.active)).length := by omega
    have he : subU s.recorders 1 = .error .overflow := by unfold subU; rw [if_neg (by omega)]
    rw [he]
    exact ⟨⟨fun _ => this, fun _ => ⟨_, rfl⟩⟩, ⟨fun _ => this, fun _ => ⟨_, rfl⟩⟩⟩
  · have he : subU s.recorders 1 = .ok (s.recorders - 1) := by unfold subU; rw [if_pos (by omega)]
    rw [he]
    refine ⟨⟨fun ⟨p, e⟩ => ?_, fun _ => by omega⟩, ⟨fun ⟨p, e⟩ => ?_, fun _ => by omega⟩⟩ <;> cases e

/-- two recorders, one leaked guard: the count is 1; after dropping one recorder it is 0, and dropping the other panics -/
example : (∃ s, exec (HistOps.concrete Fp.ideal .u8) [.recorder, .clone 0, .idle 0, .idlePhase 0, .forget 0]
      (Sys.init demo) = some (.ok s) ∧ (s.lock = none ∧ s.recorders = 1 ∧ (s.recs.filter (·.pc.active)).length = 2)) ∧
    ∃ s, exec (HistOps.concrete Fp.ideal .u8) [.recorder, .clone 0, .idle 0, .idlePhase 0, .forget 0, .drop 1, .dropSend 1]
      (Sys.init demo) = some (.ok s) ∧ (s.lock = none ∧ s.recorders = 0 ∧ (s.recs.filter (·.pc.active)).length = 1) :=
  ⟨execThen (by decide +kernel), execThen (by decide +kernel)⟩

/-! ## What a refresh misses -/

/-- every recorder holds what `acc` says -/
def Kept (s : Sys (H × List W)) (acc : Nat → List W) : Prop :=
  (∀ i r, s.recs[i]? = some r → r.loc.2 = acc i) ∧ ∀ i, s.recs.length ≤ i → acc i = []

theorem kept_set {s : Sys (H × List W)} {acc acc' : Nat → List W} {i : Nat} {r a : Rec (H × List W)} (K : Kept s acc)
    (hr : s.recs[i]? = some r) (ha : a.loc.2 = acc' i) (ho : ∀ j, j ≠ i → acc' j = acc j) {s' : Sys (H × List W)}
    (hs : s'.recs = s.recs.set i a) : Kept s' acc' := by
  have hi : i < s.recs.length := (List.getElem?_eq_some_iff.mp hr).1
  constructor
  · intro j x hx
    rw [hs, List.getElem?_set] at hx
    by_cases hj : i = j
    · subst hj
      rw [if_pos rfl, if_pos hi] at hx
      cases hx; exact ha
    · rw [if_neg hj] at hx
      rw [ho j (Ne.symm hj)]
      exact K.1 j x hx
  · intro j hj
    rw [hs, List.length_set] at hj
    rw [ho j (by omega)]
    exact K.2 j hj

theorem kept_append {s s' : Sys (H × List W)} {acc : Nat → List W} {a : Rec (H × List W)} (K : Kept s acc)
    (ha : a.loc.2 = []) (hs : s'.recs = s.recs ++ [a]) : Kept s' acc := by
  constructor
  · intro j x hx
    rw [hs, List.getElem?_append] at hx
    split at hx
    · exact K.1 j x hx
    · rename_i hj
      rw [K.2 j (by omega)]
      have : x = a := by
        have := List.mem_of_getElem? hx
        simpa using this
      rw [this]; exact ha
  · intro j hj
    rw [hs] at hj
    simp at hj
    exact K.2 j (by omega)

theorem kept_step {s s' : Sys (H × List W)} {l : Label W} {acc : Nat → List W} (K : Kept s acc)
    (st : Step o.traced s l s') : Kept s' (fun i => unsentStep i (acc i) l) := by
  have fr : ∀ {x y : H × List W}, o.traced.fresh x = .ok y → y.2 = [] := by
    intro x y e
    simp only [HistOps.traced] at e
    rw [M.bind_eq_ok] at e
    obtain ⟨f, -, e⟩ := e
    cases e; rfl
  cases st with
  | write i w r l hr hp hw =>
    refine kept_set K hr ?_ ?_ rfl
    · simp only [HistOps.traced] at hw
      rw [M.bind_eq_ok] at hw
      obtain ⟨f, -, e⟩ := hw
      cases e
      simp [unsentStep, K.1 i r hr]
    · intro j hj; simp [unsentStep, Ne.symm hj]
  | writeSend i r p f hr hp hf =>
    refine kept_set K hr ?_ ?_ rfl
    · simp [unsentStep, fr hf]
    · intro j hj; simp [unsentStep, Ne.symm hj]
  | dropSend i r f hr hp hf =>
    refine kept_set K hr ?_ ?_ rfl
    · simp [unsentStep, fr hf]
    · intro j hj; simp [unsentStep, Ne.symm hj]
  | idleSend i r p f hr hp hf =>
    refine kept_set K hr ?_ ?_ rfl
    · simp [unsentStep, fr hf]
    · intro j hj; simp [unsentStep, Ne.symm hj]
  | recorder f hl hrd hf => exact kept_append K (fr hf) rfl
  | clone i r f hr hl hp hf => exact kept_append K (fr hf) rfl
  | drop i r hr | idle i r hr | idlePhaseNew i r hr | idlePhaseOld i r hr | wake i r hr | wakePhase i r hr | forget i r hr =>
    refine kept_set K hr ?_ (fun _ _ => rfl) rfl
    have := K.1 _ _ hr
    exact this
  | start | drain | drainEnd | count | bump | recv | timeout | waitEnd | finalRecv | finalEnd => exact K

theorem kept_exec {ls : List (Label W)} {s s' : Sys (H × List W)} {acc : Nat → List W} (K : Kept s acc)
    (e : exec o.traced ls s = some (.ok s')) : Kept s' (fun i => ls.foldl (unsentStep i) (acc i)) := by
  induction ls generalizing s acc with
  | nil => cases e; exact K
  | cons l ls ih =>
    obtain ⟨t, e1, e2⟩ := exec_cons e
    exact ih (kept_step K (step_ok e1)) e2

/-- dropped recorders hold nothing -/
def GoneEmpty (s : Sys (H × List W)) : Prop := ∀ r ∈ s.recs, r.pc = .gone → r.loc.2 = []

theorem gone_step {s s' : Sys (H × List W)} {l : Label W} (G : GoneEmpty s) (st : Step o.traced s l s') : GoneEmpty s' := by
  have fr : ∀ {x y : H × List W}, o.traced.fresh x = .ok y → y.2 = [] := by
    intro x y e
    simp only [HistOps.traced] at e
    rw [M.bind_eq_ok] at e
    obtain ⟨f, -, e⟩ := e
    cases e; rfl
  have put : ∀ {i : Nat} {a : Rec (H × List W)}, (a.pc = .gone → a.loc.2 = []) →
      ∀ r ∈ s.recs.set i a, r.pc = .gone → r.loc.2 = [] := by
    intro i a ha r hr
    rcases List.mem_or_eq_of_mem_set hr with h | h
    · exact G r h
    · subst h; exact ha
  cases st with
  | write i w r l hr hp hw =>
    refine put fun h => ?_
    dsimp only at h
    split at h <;> cases h
  | writeSend | drop | idle | idlePhaseNew | idlePhaseOld | idleSend | wake | wakePhase | forget =>
    exact put fun h => by cases h
  | dropSend i r f hr hp hf => exact put fun _ => fr hf
  | recorder f hl hrd hf | clone i r f hr hl hp hf =>
    intro r hr h
    rcases List.mem_append.mp hr with hr | hr
    · exact G r hr h
    · simp at hr; subst hr; cases h
  | start | drain | drainEnd | count | bump | recv | timeout | waitEnd | finalRecv | finalEnd => exact G

theorem flatMap_range {α β : Type} (l : List α) (f : α → List β) (g : Nat → List β) (h : ∀ i a, l[i]? = some a → f a = g i) :
    l.flatMap f = (List.range l.length).flatMap g := by
  induction l generalizing g with
  | nil => rfl
  | cons a l ih =>
    rw [List.flatMap_cons, List.length_cons, List.range_succ_eq_map, List.flatMap_cons, List.flatMap_map,
      ih (fun i => g (i + 1)) (fun i b hb => h (i + 1) b (by simpa using hb)), h 0 a (by simp)]

/-- C48 (7), without conditions: whatever the recorders do in the meantime, and whether or not the refresh times out, when
it returns exactly those writes are not in the merged histogram that some recorder has made since it last sent its
histogram (recorders send when a write finds a new phase, when they go idle and find one, and when they are dropped). -/
theorem C48_missing (h : H) (ls : List (Label W)) (s : Sys (H × List W))
    (e : exec o.traced (ls ++ [.finalEnd]) (Sys.init (h, [])) = some (.ok s)) :
    (s.merged.2 ++ (List.range s.recs.length).flatMap fun i => unsent i ls).Perm (writesOf ls) := by
  have p := C47_exactly_once h _ s e
  obtain ⟨t, e1, e2⟩ := exec_append e
  obtain ⟨t', e3, e4⟩ := exec_cons e2
  cases e4
  have st := step_ok e3
  have hw : writesOf (ls ++ [.finalEnd]) = writesOf ls := by
    clear p e e1 e2 e3 st
    induction ls with
    | nil => rfl
    | cons l ls ih => cases l <;> simp only [List.cons_append, writesOf, ih]
  have K := kept_exec (o := o) (acc := fun _ => []) (s := Sys.init (h, [])) ⟨by simp [Sys.init], fun _ _ => rfl⟩ e1
  have G := exec_inv (o := o.traced) (P := fun _ _ => True) (I := GoneEmpty) (fun s l s' I _ st => gone_step I st)
    (s := Sys.init (h, [])) (by simp [GoneEmpty, Sys.init]) (always_of_mem fun _ _ _ => trivial) e1
  cases st with
  | finalEnd hrd hc =>
    rw [hw] at p
    have h1 : Sys.chanWrites { t with reader := .out } = [] := by unfold Sys.chanWrites; dsimp only; rw [hc]; rfl
    have h2 : Sys.localWrites Pc.live { t with reader := .out } =
        (List.range t.recs.length).flatMap fun i => unsent i ls := by
      rw [← flatMap_range t.recs (fun r => r.loc.2) (fun i => unsent i ls) fun i a ha => K.1 i a ha]
      unfold Sys.localWrites
      dsimp only
      clear p e e1 e2 e3 h1 K hc
      have G : ∀ r ∈ t.recs, r.pc = .gone → r.loc.2 = [] := G
      revert G
      generalize t.recs = l
      intro G
      induction l with
      | nil => rfl
      | cons a l ih =>
        have ih := ih fun r hr => G r (by simp [hr])
        rw [List.flatMap_cons, ← ih]
        by_cases ha : a.pc = .gone
        · rw [List.filter_cons_of_neg (by rw [ha]; simp [Pc.live]), G a (by simp) ha]; rfl
        · rw [List.filter_cons_of_pos (by cases hp : a.pc <;> simp_all [Pc.live]), List.flatMap_cons]
    rw [h1, List.append_nil, h2] at p
    exact p

/-- a refresh that times out while recorder 1 does not answer: its write of 3 is missing, that of recorder 0 is not -/
def missDemo : List (Label (Write .u8)) :=
  [.recorder, .clone 0, .write 0 (.recordN 5 1), .write 1 (.recordN 3 2), .start true, .drainEnd, .count, .bump,
   .write 0 (.recordN 7 1), .writeSend 0, .write 0 (.recordN 1 1), .recv, .timeout]

example : (∃ s, exec (HistOps.concrete Fp.ideal .u8).traced (missDemo ++ [.finalEnd]) (Sys.init (demo, [])) = some (.ok s) ∧
      (s.merged.2.length = 2 ∧ s.recs.length = 2)) ∧
    unsent 0 missDemo = [.recordN 1 1] ∧ unsent 1 missDemo = [.recordN 3 2] ∧ (writesOf missDemo).length = 4 :=
  ⟨execThen (by decide +kernel), rfl, rfl, rfl⟩

/-- C48 (8), in terms of counts: with the real histograms, when any refresh returns the merged histogram holds for every
value what was there at the start and what was recorded, less what recorders have recorded since they last sent. -/
theorem C48_missing_counts {T : CounterTy} {fp : Fp} {h : Hist T} (R : Reachable fp T h) (ls : List (Label (Write T)))
    (s : Sys (Hist T)) (hp : PlainRun fp h ls)
    (e : exec (HistOps.concrete fp T) (ls ++ [.finalEnd]) (Sys.init h) = some (.ok s)) (v n : Nat) (hv : v ≤ U64MAX)
    (hn : HasCount h v n) :
    ∃ m, HasCount s.merged v (min (n + m) T.max) ∧
      m + recordedFor h (((List.range s.recs.length).flatMap fun i => unsent i ls).flatMap (Write.samples h)) v =
        recordedFor h ((writesOf ls).flatMap (Write.samples h)) v := by
  have W := R.wf
  obtain ⟨y, ey, eo⟩ := lift_exec e
  cases y with
  | error p => cases eo
  | ok g =>
    cases eo
    have perm := C48_missing h ls g ey
    have hl : ∀ l ∈ ls ++ [Label.finalEnd], okLabel (Write.Plain fp h) l ∧ ∀ i, l ≠ .forget i := by
      intro l hl
      rcases List.mem_append.mp hl with hl | hl
      · exact run_labels hp l hl
      · simp at hl; subst hl; exact ⟨trivial, fun i h => by cases h⟩
    have := fine_exec (hist_fine W fun j => h.counts.getD j 0) (s := Sys.init (h, []))
      ⟨holds_init W, by simp [Sys.init], by simp [Sys.init]⟩ rfl hl
    rw [ey] at this
    rcases this with h1 | ⟨s', h1, h2⟩
    · cases h1
    · cases h1
      have hm := h2.1
      have hval : ∀ ws : List (Write T), (∀ w ∈ ws, w ∈ writesOf ls) →
          ∀ p ∈ ws.flatMap (Write.samples h), p.1 ≤ U64MAX := by
        intro ws hws p hpm
        obtain ⟨w, hwm, hpw⟩ := List.mem_flatMap.mp hpm
        exact samples_le W (hp.1 w (hws w hwm)) p hpw
      have hsub1 : ∀ w ∈ g.merged.2, w ∈ writesOf ls := fun w hw => perm.subset (List.mem_append_left _ hw)
      have hsub2 : ∀ w ∈ (List.range g.recs.length).flatMap (fun i => unsent i ls), w ∈ writesOf ls :=
        fun w hw => perm.subset (List.mem_append_right _ hw)
      refine ⟨recordedFor h (g.merged.2.flatMap (Write.samples h)) v, ?_, ?_⟩
      · change HasCount g.merged.1 v _
        rw [hm.wf.hasCount_iff hv, hm.counts, hm.cfg.lidx]
        rw [W.hasCount_iff hv] at hn
        rw [W.recordedFor_eq (hval _ hsub1) hv, ← hn]
        rfl
      · have hlen : g.erase.recs.length = g.recs.length := by simp [Sys.erase]
        rw [hlen, W.recordedFor_eq (hval _ hsub1) hv, W.recordedFor_eq (hval _ hsub2) hv,
          W.recordedFor_eq (hval _ fun _ h => h) hv, ← hits_append, ← List.flatMap_append]
        unfold Hist.hits
        exact ((perm.flatMap_right _).map _).sum_eq

theorem missDemo_plain : PlainRun Fp.ideal demo missDemo := by
  refine ⟨?_, ?_⟩
  · intro w hw
    simp [missDemo, writesOf] at hw
    rcases hw with rfl | rfl | rfl | rfl <;> exact ⟨by decide, by decide, Or.inr (by decide)⟩
  · intro i; simp [missDemo]

example : PlainRun Fp.ideal demo missDemo ∧ HasCount demo 3 0 ∧
    (∃ s, exec (HistOps.concrete Fp.ideal .u8) (missDemo ++ [.finalEnd]) (Sys.init demo) = some (.ok s) ∧
      (s.merged.countAt 3 = .ok 0 ∧ s.merged.countAt 5 = .ok 2)) ∧
    recordedFor demo ((writesOf missDemo).flatMap (Write.samples demo)) 3 = 2 ∧
    recordedFor demo ((unsent 0 missDemo ++ unsent 1 missDemo).flatMap (Write.samples demo)) 3 = 2 :=
  ⟨missDemo_plain, Or.inl (by decide), execThen (by decide +kernel), by decide, by decide⟩

end Hdr
