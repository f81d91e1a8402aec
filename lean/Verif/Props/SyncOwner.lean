import Verif.Spec.SyncOwner
import Verif.Props.SyncExt
import Verif.Props.SyncMoves
import Verif.Proofs.SyncPanicHist
import Verif.Props.Merge

/-!
# C95: an owner that does anything to the merged histogram
-/

namespace Hdr.Sync

section generic

variable {H W : Type} {o : HistOps H W}

theorem receive_panics {s : Sys H} {next : Reader} {p : Panic} (e : receive o s next = some (.error p)) :
    ∃ h, s.chan.head? = some h ∧ o.add s.merged h = .error p := by
  unfold receive at e
  cases hc : s.chan with
  | nil => rw [hc] at e; cases e
  | cons h rest =>
    rw [hc] at e
    refine ⟨h, rfl, ?_⟩
    dsimp only at e
    cases ha : o.add s.merged h with
    | error q => rw [ha] at e; cases e; rfl
    | ok m => rw [ha] at e; cases e

theorem receive_fails {s : Sys H} {next : Reader} {p : Panic} {h : H} (hc : s.chan.head? = some h)
    (ha : o.add s.merged h = .error p) : receive o s next = some (.error p) := by
  unfold receive
  cases hs : s.chan with
  | nil => rw [hs] at hc; cases hc
  | cons g rest =>
    rw [hs] at hc; cases hc
    dsimp only
    rw [ha]; rfl

/-- a step that panics although everything but `add` is sure to succeed is one that merges -/
theorem panic_merges {okW : W → Prop} {Pm Pl : H → Prop} (F : Fine o.lenient okW Pm Pl) {s : Sys H} {l : Label W}
    {p : Panic} (A : AllP Pm Pl s) (N : Counted s) (hl : okLabel okW l) (e : step o s l = some (.error p)) :
    ∃ h, s.chan.head? = some h ∧ o.add s.merged h = .error p ∧
      ((l = .drain ∧ ∃ t, s.reader = .drain t) ∨ (l = .recv ∧ ∃ t n k, s.reader = .wait t n k ∧ k < n) ∨
        (l = .finalRecv ∧ s.reader = .final)) := by
  have safe := fun p => fine_safe (p := p) F A N hl
  cases l with
  | drain =>
    simp only [step, drain] at e
    split at e
    · rename_i t hr
      obtain ⟨h, hc, ha⟩ := receive_panics e
      exact ⟨h, hc, ha, .inl ⟨rfl, t, hr⟩⟩
    · cases e
  | recv =>
    simp only [step, recv] at e
    split at e
    · rename_i t n k hr
      split at e
      · rename_i hk
        obtain ⟨h, hc, ha⟩ := receive_panics e
        exact ⟨h, hc, ha, .inr (.inl ⟨rfl, t, n, k, hr, hk⟩)⟩
      · cases e
    · cases e
  | finalRecv =>
    simp only [step, finalRecv] at e
    split at e
    · rename_i hr
      obtain ⟨h, hc, ha⟩ := receive_panics e
      exact ⟨h, hc, ha, .inr (.inr ⟨rfl, hr⟩)⟩
    · cases e
  | _ => exact absurd e (safe p)

theorem merge_panics {s : Sys H} {l : Label W} {p : Panic} {h : H} (hc : s.chan.head? = some h)
    (ha : o.add s.merged h = .error p)
    (hl : (l = .drain ∧ ∃ t, s.reader = .drain t) ∨ (l = .recv ∧ ∃ t n k, s.reader = .wait t n k ∧ k < n) ∨
        (l = .finalRecv ∧ s.reader = .final)) : step o s l = some (.error p) := by
  rcases hl with ⟨rfl, t, hr⟩ | ⟨rfl, t, n, k, hr, hk⟩ | ⟨rfl, hr⟩
  · simp only [step, drain, hr]; exact receive_fails hc ha
  · simp only [step, recv, hr]; rw [if_pos hk]; exact receive_fails hc ha
  · simp only [step, finalRecv, hr]; exact receive_fails hc ha

/-- as `o`, but failed merges are ignored -/
def OwnerOps.lenient (o : OwnerOps H W) : OwnerOps H W := { o.toHistOps.lenient with reset := o.reset }

/-- a step that does not panic is the same step when failed merges are ignored -/
theorem lenient_xstep {o : OwnerOps H W} {x y : XSys H} {l : XLabel W} (st : XStep o x l y) : XStep o.lenient x l y := by
  cases st with
  | now l t hn st => exact .now l t hn (lenient_step st)
  | late l p i r t hi hr hp hq st => exact .late l p i r t hi hr hp hq (lenient_step st)
  | own w m hc hr hw => exact .own w m hc hr hw
  | reset m hc hr hw => exact .reset m hc hr hw
  | close hc hr => exact .close hc hr

end generic

variable {T : CounterTy} {fp : Fp}

theorem owned_write {x : Hist T} (R : Reachable fp T x) {w : OwnerWrite T} (hw : w.Typed fp) :
    ∃ y, w.run x = .ok y ∧ Reachable fp T y := by
  cases w with
  | put g => exact ⟨g, rfl, hw⟩
  | write w =>
    obtain ⟨y, e, -⟩ := mild_write (h0 := x) hw ⟨R.wf, ⟨rfl, rfl, rfl, rfl, rfl⟩, le_refl _, fun _ => rfl, fun h => by cases h⟩
    exact ⟨y, e, (Sound.write (h0 := x) ⟨R, ⟨rfl, rfl, rfl, rfl, rfl⟩⟩ hw e).reach⟩

theorem owned_fine : XFine (OwnerOps.owned fp T).lenient (OwnerWrite.Typed fp) (Reachable fp T) (Reachable fp T) where
  freshM h R := by
    obtain ⟨f, e, -⟩ := R.wf.newFrom_eq (T := T)
    exact ⟨f, e, .newFrom R e⟩
  freshL h R := by
    obtain ⟨f, e, -⟩ := R.wf.newFrom_eq (T := T)
    exact ⟨f, e, .newFrom R e⟩
  add m h Rm Rh := by
    obtain ⟨m', r, e, -⟩ := C18_add_outcome_partial Rm Rh
    have R' : Reachable fp T m' := .add Rm Rh e
    simp only [OwnerOps.lenient, HistOps.lenient, OwnerOps.owned, addExpect, e]
    cases r with
    | ok u => exact ⟨m', rfl, R'⟩
    | error q => exact ⟨m, rfl, Rm⟩
  write w h hw R := owned_write R hw
  own w h hw R := owned_write R hw
  reset h R := ⟨_, rfl, .reset R⟩

theorem owned_all {h : Hist T} (R : Reachable fp T h) {ls : List (XLabel (OwnerWrite T))} {x : XSys (Hist T)}
    (hp : OwnedRun fp ls) (e : xexec (OwnerOps.owned fp T) ls (XSys.init h) = some (.ok x)) :
    AllP (Reachable fp T) (Reachable fp T) x.sys ∧ Counted x.sys :=
  xexec_inv (P := okX (OwnerWrite.Typed fp))
    (I := fun x : XSys (Hist T) => AllP (Reachable fp T) (Reachable fp T) x.sys ∧ Counted x.sys)
    (fun _ _ _ I hl st => xfine_ok owned_fine I hl (lenient_xstep st))
    (show AllP _ _ (XSys.init h).sys ∧ Counted (XSys.init h).sys from
      ⟨⟨R, by simp [XSys.init, Sys.init], by simp [XSys.init, Sys.init]⟩, rfl⟩) (xrun_labels hp) e

/-- C95 (1): whatever the owner does to the merged histogram and whatever the recorders write, at every time every histogram
there is (merged, in the channel, in a recorder) is one that a program without threads could have made: all the theorems
about `Reachable` histograms hold of it. -/
theorem C95_histograms {h : Hist T} (R : Reachable fp T h) (ls : List (XLabel (OwnerWrite T))) (x : XSys (Hist T))
    (hp : OwnedRun fp ls) (e : xexec (OwnerOps.owned fp T) ls (XSys.init h) = some (.ok x)) :
    Reachable fp T x.sys.merged ∧ (∀ g ∈ x.sys.chan, Reachable fp T g) ∧ ∀ r ∈ x.sys.recs, Reachable fp T r.loc :=
  (owned_all R hp e).1

theorem addExpect_error {m g : Hist T} (Rm : Reachable fp T m) (Rg : Reachable fp T g) {p : Panic} :
    addExpect m g = .error p ↔ p = .expect ∧ ∃ mx, g.max = .ok mx ∧ g.len ≠ 0 ∧ m.isAutoResize = false ∧
      (¬ m.Covers mx ∨ mx = U64MAX) := by
  obtain ⟨m', r, e, hr, hiff, -⟩ := C18_add_outcome_partial Rm Rg
  obtain ⟨mx, emx⟩ : ∃ mx, g.max = .ok mx := ⟨_, Rg.wf.max_eq⟩
  have key := hiff mx emx
  have : addExpect m g = .error p ↔ p = .expect ∧ r = .error .OtherAddendValueExceedsRange := by
    unfold addExpect
    rw [e]
    rcases hr with rfl | rfl
    · constructor
      · intro h; cases h
      · rintro ⟨-, h⟩; cases h
    · constructor
      · intro h; cases h; exact ⟨rfl, rfl⟩
      · rintro ⟨rfl, -⟩; rfl
  rw [this, key]
  constructor
  · rintro ⟨hp, h⟩; exact ⟨hp, mx, emx, h⟩
  · rintro ⟨hp, mx', e', h⟩
    rw [emx] at e'; cases e'
    exact ⟨hp, h⟩

/-- C95 (2): whatever the owner has done to the merged histogram so far, a next step panics exactly if it is the step of a
refresh that merges a received histogram, the received histogram is not empty, the merged histogram does not resize, and
the largest value received is not in its range, or `u64::MAX`.  In particular no call of a recorder ever panics, and a
refresh never panics while the merged histogram resizes. -/
theorem C95_panics_iff {h : Hist T} (R : Reachable fp T h) (ls : List (XLabel (OwnerWrite T))) (x : XSys (Hist T))
    (hp : OwnedRun fp ls) (e : xexec (OwnerOps.owned fp T) ls (XSys.init h) = some (.ok x))
    (l : XLabel (OwnerWrite T)) (hl : OwnedRun fp [l]) (p : Panic) :
    xstep (OwnerOps.owned fp T) x l = some (.error p) ↔ p = .expect ∧ ∃ rx mx, Merging x l rx ∧ rx.max = .ok mx ∧
      rx.len ≠ 0 ∧ x.sys.merged.isAutoResize = false ∧ (¬ x.sys.merged.Covers mx ∨ mx = U64MAX) := by
  obtain ⟨A, N⟩ := owned_all R hp e
  have ok1 : okX (OwnerWrite.Typed fp) l := xrun_labels hl l (by simp)
  have mem : ∀ rx, x.sys.chan.head? = some rx → Reachable fp T rx := by
    intro rx hc
    apply A.2.1
    cases hs : x.sys.chan with
    | nil => rw [hs] at hc; cases hc
    | cons a b => rw [hs] at hc; cases hc; simp
  constructor
  · intro es
    cases l with
    | now l =>
      simp only [xstep] at es
      split at es
      · cases es
      · rename_i hn
        obtain ⟨rx, hc, ha, hw⟩ := panic_merges owned_fine.toFine A N (okX_now ok1 x.sys).1 (after_error es)
        obtain ⟨hpe, mx, h1⟩ := (addExpect_error A.1 (mem rx hc)).mp ha
        refine ⟨hpe, rx, mx, ⟨?_, hc, ?_⟩, h1⟩
        · cases hcl : x.closed with
          | false => rfl
          | true =>
            refine absurd ⟨hcl, ?_⟩ hn
            rcases hw with ⟨rfl, -⟩ | ⟨rfl, -⟩ | ⟨rfl, -⟩ <;> rfl
        · rcases hw with ⟨rfl, h⟩ | ⟨rfl, h⟩ | ⟨rfl, h⟩
          · exact .inl ⟨rfl, h⟩
          · exact .inr (.inl ⟨rfl, h⟩)
          · exact .inr (.inr ⟨rfl, h⟩)
    | late l q =>
      obtain ⟨i, r, hi, -, -, -, h⟩ := late_some (after_error es)
      obtain ⟨rx, -, -, hw⟩ := panic_merges owned_fine.toFine (s := { x.sys with phase := q }) A N (okX_late ok1 hi x.sys).1
        (after_error h)
      rcases hw with ⟨rfl, -⟩ | ⟨rfl, -⟩ | ⟨rfl, -⟩ <;> cases hi
    | own w => exact absurd es (xfine_safe owned_fine (l := .own w) ⟨A, N⟩ ok1)
    | reset => exact absurd es (xfine_safe owned_fine (l := .reset) ⟨A, N⟩ ok1)
    | close => exact absurd es (xfine_safe owned_fine (l := .close) ⟨A, N⟩ ok1)
  · rintro ⟨rfl, rx, mx, ⟨hcl, hc, hw⟩, h1⟩
    have ha := (addExpect_error A.1 (mem rx hc)).mpr ⟨rfl, mx, h1⟩
    have go : ∀ l' : Label (OwnerWrite T), ((l' = .drain ∧ ∃ t, x.sys.reader = .drain t) ∨
        (l' = .recv ∧ ∃ t n k, x.sys.reader = .wait t n k ∧ k < n) ∨ (l' = .finalRecv ∧ x.sys.reader = .final)) →
        xstep (OwnerOps.owned fp T) x (.now l') = some (.error .expect) := by
      intro l' hl'
      simp only [xstep]
      rw [if_neg (by rw [hcl]; simp), merge_panics (o := (OwnerOps.owned fp T).toHistOps) hc ha hl']
      rfl
    rcases hw with ⟨rfl, h⟩ | ⟨rfl, h⟩ | ⟨rfl, h⟩
    · exact go _ (.inl ⟨rfl, h⟩)
    · exact go _ (.inr (.inl ⟨rfl, h⟩))
    · exact go _ (.inr (.inr ⟨rfl, h⟩))

/-! ## The settings of recorders -/

theorem _root_.Hdr.SameConfig.settings {a b : Hist T} (h : SameConfig a b) :
    b.low = a.low ∧ b.sigfig = a.sigfig ∧ b.isAutoResize = a.isAutoResize := ⟨h.low, h.sig, h.auto⟩

theorem run_keeps {w : OwnerWrite T} {a b : Hist T} (R : Reachable fp T a) (hw : w.Typed fp) (hn : ∀ g, w ≠ .put g)
    (e : w.run a = .ok b) : SameConfig a b := by
  cases w with
  | put g => exact absurd rfl (hn g)
  | write w => exact (Sound.write (h0 := a) ⟨R, .refl a⟩ hw e).cfg

theorem fresh_keeps {a b : Hist T} (R : Reachable fp T a) (e : Hist.newFrom fp T a = .ok b) : SameConfig a b :=
  (Sound.fresh (h0 := a) ⟨R, .refl a⟩ e).1.cfg

theorem kept_set {s : Sys (Hist T)} {recs : List (Rec (Hist T))} {i : Nat} {q q' : Rec (Hist T)} (hi : s.recs[i]? = some q)
    (hr : recs = s.recs.set i q') (hq : SameConfig q.loc q'.loc) {j : Nat} {r : Rec (Hist T)} (hj : s.recs[j]? = some r) :
    ∃ r', recs[j]? = some r' ∧ SameConfig r.loc r'.loc := by
  subst hr
  obtain ⟨hlt, -⟩ := List.getElem?_eq_some_iff.mp hi
  by_cases c : j = i
  · subst c
    rw [hi] at hj; cases hj
    exact ⟨q', by rw [List.getElem?_set_self hlt], hq⟩
  · exact ⟨r, by rw [List.getElem?_set_ne (Ne.symm c)]; exact hj, .refl _⟩

theorem kept_push {s : Sys (Hist T)} {q' : Rec (Hist T)} {j : Nat} {r : Rec (Hist T)} (hj : s.recs[j]? = some r) :
    ∃ r', (s.recs ++ [q'])[j]? = some r' ∧ SameConfig r.loc r'.loc := by
  obtain ⟨hlt, -⟩ := List.getElem?_eq_some_iff.mp hj
  exact ⟨r, by rw [List.getElem?_append_left hlt]; exact hj, .refl _⟩

/-- only the owner puts another histogram in place -/
def okRec : Label (OwnerWrite T) → Prop
  | .write _ (.put _) => False
  | _ => True

theorem settings_step {s t : Sys (Hist T)} {l : Label (OwnerWrite T)} (A : AllP (Reachable fp T) (Reachable fp T) s)
    (hl : okLabel (OwnerWrite.Typed fp) l) (hn : okRec l) (st : Step (OwnerOps.owned fp T).toHistOps s l t) {j : Nat}
    {r : Rec (Hist T)} (hj : s.recs[j]? = some r) : ∃ r', t.recs[j]? = some r' ∧ SameConfig r.loc r'.loc := by
  have set : ∀ {i : Nat} {q q' : Rec (Hist T)}, s.recs[i]? = some q → t.recs = s.recs.set i q' → SameConfig q.loc q'.loc →
      ∀ {j : Nat} {r : Rec (Hist T)}, s.recs[j]? = some r → ∃ r', t.recs[j]? = some r' ∧ SameConfig r.loc r'.loc :=
    fun h1 h2 h3 _ _ h4 => kept_set h1 h2 h3 h4
  cases st with
  | write i w q y hi hp hw =>
    refine set hi rfl ?_ hj
    exact run_keeps (A.2.2 q (mem_of_get hi)) hl (by rintro g rfl; exact hn) hw
  | writeSend i q p f hi hp hf => refine set hi rfl ?_ hj; exact fresh_keeps (A.2.2 q (mem_of_get hi)) hf
  | dropSend i q f hi hp hf => refine set hi rfl ?_ hj; exact fresh_keeps (A.2.2 q (mem_of_get hi)) hf
  | idleSend i q p f hi hp hf => refine set hi rfl ?_ hj; exact fresh_keeps (A.2.2 q (mem_of_get hi)) hf
  | drop i q hi | idle i q hi | idlePhaseNew i q hi | idlePhaseOld i q hi | wake i q hi | wakePhase i q hi | forget i q hi =>
    refine set hi rfl ?_ hj; exact .refl _
  | recorder f hlk hrd hf => exact kept_push hj
  | clone i q f hi hlk hp hf => exact kept_push hj
  | _ => exact ⟨r, hj, .refl _⟩

theorem settings_xstep {x y : XSys (Hist T)} {l : XLabel (OwnerWrite T)}
    (A : AllP (Reachable fp T) (Reachable fp T) x.sys ∧ Counted x.sys) (hl : okX (OwnerWrite.Typed fp) l)
    (hn : OwnerPuts [l]) (st : XStep (OwnerOps.owned fp T) x l y) {j : Nat} {r : Rec (Hist T)}
    (hj : x.sys.recs[j]? = some r) : ∃ r', y.sys.recs[j]? = some r' ∧ SameConfig r.loc r'.loc := by
  have del : ∀ t : Sys (Hist T), (x.deliver t).sys.recs = t.recs := by
    intro t; unfold XSys.deliver; dsimp only; split <;> rfl
  cases st with
  | now l t hno st =>
    rw [del]
    refine settings_step A.1 (okX_now hl x.sys).1 ?_ st hj
    cases l with
    | write i w => cases w with
      | put g => exact hn.1 i g (by simp)
      | write w => trivial
    | _ => trivial
  | late l p i q t hi hr hp hq st =>
    rw [del]
    refine settings_step (s := { x.sys with phase := p }) A.1 (okX_late hl hi x.sys).1 ?_ st hj
    cases l with
    | write i w => cases w with
      | put g => exact hn.2 i g p (by simp)
      | write w => trivial
    | _ => trivial
  | own | reset | close => exact ⟨r, hj, .refl _⟩

/-- C95 (3): a recorder keeps the settings it was made with (lowest discernible value, precision, auto-resize), whatever the
owner does to the merged histogram in the meantime. -/
theorem C95_settings {h : Hist T} (R : Reachable fp T h) (ls1 ls2 : List (XLabel (OwnerWrite T))) (x y : XSys (Hist T))
    (hp : OwnedRun fp (ls1 ++ ls2)) (hn : OwnerPuts ls2)
    (e1 : xexec (OwnerOps.owned fp T) ls1 (XSys.init h) = some (.ok x))
    (e2 : xexec (OwnerOps.owned fp T) ls2 x = some (.ok y)) (i : Nat) (r : Rec (Hist T)) (hr : x.sys.recs[i]? = some r) :
    ∃ r', y.sys.recs[i]? = some r' ∧ r'.loc.low = r.loc.low ∧ r'.loc.sigfig = r.loc.sigfig ∧
      r'.loc.isAutoResize = r.loc.isAutoResize := by
  have ok := xrun_labels hp
  have A := xexec_inv (P := okX (OwnerWrite.Typed fp))
    (I := fun x : XSys (Hist T) => AllP (Reachable fp T) (Reachable fp T) x.sys ∧ Counted x.sys)
    (fun _ _ _ I hl st => xfine_ok owned_fine I hl (lenient_xstep st))
    (show AllP _ _ (XSys.init h).sys ∧ Counted (XSys.init h).sys from
      ⟨⟨R, by simp [XSys.init, Sys.init], by simp [XSys.init, Sys.init]⟩, rfl⟩)
    (fun l hl => ok l (List.mem_append_left _ hl)) e1
  have ok2 : ∀ l ∈ ls2, okX (OwnerWrite.Typed fp) l := fun l hl => ok l (List.mem_append_right _ hl)
  suffices ∃ r', y.sys.recs[i]? = some r' ∧ SameConfig r.loc r'.loc by
    obtain ⟨r', h1, h2⟩ := this
    exact ⟨r', h1, h2.settings⟩
  clear hp e1 ok
  induction ls2 generalizing x r with
  | nil => cases e2; exact ⟨r, hr, .refl _⟩
  | cons l ls ih =>
    obtain ⟨t, et, e3⟩ := xexec_cons e2
    have st := xstep_ok et
    obtain ⟨q, hq, cq⟩ := settings_xstep A (ok2 l (by simp))
      ⟨fun i g h => hn.1 i g (by simp at h; simp [h]), fun i g p h => hn.2 i g p (by simp at h; simp [h])⟩ st hr
    obtain ⟨r', h1, h2⟩ := ih t ⟨fun i g h => hn.1 i g (by simp [h]), fun i g p h => hn.2 i g p (by simp [h])⟩ e3 q hq
      (xfine_ok owned_fine A (ok2 l (by simp)) (lenient_xstep st)) (fun l' h' => ok2 l' (by simp [h']))
    exact ⟨r', h1, cq.trans h2⟩

/-- C95 (4): a new recorder has the settings and the range the merged histogram has at that time, and holds nothing. -/
theorem C95_new_recorder {h : Hist T} (R : Reachable fp T h) (ls : List (XLabel (OwnerWrite T))) (x y : XSys (Hist T))
    (hp : OwnedRun fp ls) (e : xexec (OwnerOps.owned fp T) ls (XSys.init h) = some (.ok x))
    (e2 : xstep (OwnerOps.owned fp T) x (.now .recorder) = some (.ok y)) :
    ∃ r, y.sys.recs = x.sys.recs ++ [r] ∧ r.loc.len = 0 ∧ r.loc.low = x.sys.merged.low ∧
      r.loc.high = x.sys.merged.high ∧ r.loc.sigfig = x.sys.merged.sigfig ∧
      r.loc.isAutoResize = x.sys.merged.isAutoResize := by
  have A := owned_all R hp e
  have del : ∀ t : Sys (Hist T), (x.deliver t).sys.recs = t.recs := by
    intro t; unfold XSys.deliver; dsimp only; split <;> rfl
  cases xstep_ok e2 with
  | now l t hn st =>
    cases st with
    | recorder f hlk hrd hf =>
      obtain ⟨g, e', -, ht, -, -, ha, hlo, hh, hs, -⟩ := A.1.1.wf.newFrom_eq (T := T)
      have : g = f := by
        have : Hist.newFrom fp T x.sys.merged = .ok f := hf
        rw [e'] at this; cases this; rfl
      subst this
      exact ⟨_, del _, ht, hlo, hh, hs, ha⟩

/-! ## Cases -/

/-- recorder 0 writes a value; the owner puts `g` in the place of the merged histogram, the recorder is dropped, a refresh
begins -/
def ownedDemo (g : Hist .u8) : List (XLabel (OwnerWrite .u8)) :=
  [.now .recorder, .now (.write 0 (.write (.recordN 70000 1))), .own (.put g), .now (.drop 0), .now (.dropSend 0),
   .now (.start false)]

theorem ownedDemo_run (g : Hist .u8) (R : Reachable Fp.ideal .u8 g) : OwnedRun Fp.ideal (ownedDemo g) := by
  refine ⟨fun w hw => ?_, fun i => by simp [ownedDemo]⟩
  simp only [ownedDemo, xwrites, List.mem_cons, List.not_mem_nil, or_false] at hw
  rcases hw with rfl | rfl
  · exact ⟨by decide, by decide⟩
  · exact R

example (g : Hist .u8) : OwnerPuts (ownedDemo g) := by
  constructor <;> intros <;> simp [ownedDemo]

/-- the histogram still resizes: the value is merged -/
example : Reachable Fp.ideal .u8 demoW ∧ ∃ x,
    xexec (OwnerOps.owned Fp.ideal .u8) (ownedDemo demoW ++ [.now .drain]) (XSys.init demoW) = some (.ok x) ∧
      (x.sys.merged.countAt 70000 = .ok 1 ∧ x.sys.merged.len = 1) :=
  ⟨demoW_reachable, xexecThen (by decide +kernel)⟩

/-- a refresh can panic: the `SyncHistogram` resized when the recorder was made and recorded 70000; then the owner turned
auto-resize off (`sync.auto(false)`), and the next refresh panics -/
theorem C95_auto_off_panics : Reachable Fp.ideal .u8 (demoW.auto false) ∧
    (∃ x, xexec (OwnerOps.owned Fp.ideal .u8) (ownedDemo (demoW.auto false)) (XSys.init demoW) = some (.ok x) ∧
      (x.sys.chan.map (·.len) = [1] ∧ x.sys.merged.isAutoResize = false ∧ ¬ x.sys.merged.Covers 70000 ∧ x.closed = false)) ∧
    xexec (OwnerOps.owned Fp.ideal .u8) (ownedDemo (demoW.auto false) ++ [.now .drain]) (XSys.init demoW) =
      some (.error .expect) := by
  refine ⟨.auto false demoW_reachable, xexecThen (by decide +kernel), ?_⟩
  have h : (match xexec (OwnerOps.owned Fp.ideal .u8) (ownedDemo (demoW.auto false) ++ [.now .drain]) (XSys.init demoW) with
    | some (.error .expect) => true
    | _ => false) = true := by decide +kernel
  split at h
  · assumption
  · cases h

/-- the owner puts a histogram with other settings in place: merging works across settings -/
example : ∃ x y, xexec (OwnerOps.owned Fp.ideal .u8) ((ownedDemo (demo3.auto true)).take 3) (XSys.init demoW) = some (.ok x) ∧
    xexec (OwnerOps.owned Fp.ideal .u8) ((ownedDemo (demo3.auto true)).drop 3 ++ [.now .drain]) x = some (.ok y) ∧
      ((x.sys.recs.map (·.loc.low) = [4] ∧ x.sys.merged.low = 1) ∧ y.sys.recs.map (·.loc.low) = [4] ∧
        y.sys.merged.len = 205) :=
  xexecThen2 (P := fun x y : XSys (Hist .u8) => (x.sys.recs.map (·.loc.low) = [4] ∧ x.sys.merged.low = 1) ∧ y.sys.recs.map (·.loc.low) = [4] ∧
        y.sys.merged.len = 205) (by decide +kernel)

end Hdr.Sync
