import Verif.Spec.SyncFold
import Verif.Props.SyncOwner

/-!
# C96: a concurrent program does to the merged histogram what a program without threads could do
-/

namespace Hdr.Sync

variable {H W : Type} {o : OwnerOps H W}

theorem did_append {a b : List (Did H W)} : Did.merged (a ++ b) = Did.merged a ++ Did.merged b ∧
    Did.owners (a ++ b) = Did.owners a ++ Did.owners b := by
  induction a with
  | nil => exact ⟨rfl, rfl⟩
  | cons d ds ih =>
    cases d <;> simp only [List.cons_append, Did.merged, Did.owners, ih.1, ih.2] <;> exact ⟨trivial, trivial⟩

theorem fold_one (m : H) (d : Did H W) : [d].foldlM (Did.run o) m = d.run o m := by
  cases e : d.run o m with
  | ok x => simp [e]
  | error p => simp [e]

/-- what one step does -/
theorem did_step {x y : XSys H} {l : XLabel W} (O : Open x) (hl : l ≠ .close) (st : XStep o x l y) :
    ∃ ds : List (Did H W), ds.foldlM (Did.run o) x.sys.merged = .ok y.sys.merged ∧
      Did.merged ds ++ y.sys.chan = x.sys.chan ++ x.sentBy l ∧ Did.owners ds = [l].filter XLabel.isOwner := by
  cases st with
  | now l t hn st =>
    rw [deliver_open O]
    have none_ : ∀ (_ : (XLabel.now l).sends = none) (_ : t.merged = x.sys.merged) (_ : t.chan = x.sys.chan),
        ∃ ds : List (Did H W), ds.foldlM (Did.run o) x.sys.merged = .ok t.merged ∧
          Did.merged ds ++ t.chan = x.sys.chan ++ x.sentBy (.now l) ∧
          Did.owners ds = [XLabel.now l].filter XLabel.isOwner := by
      intro h1 h2 h3
      refine ⟨[], by rw [h2]; rfl, ?_, rfl⟩
      simp only [XSys.sentBy, h1, Did.merged, h3]
      simp
    have send_ : ∀ (i : Nat) (r : Rec H) (_ : (XLabel.now l).sends = some i) (_ : x.sys.recs[i]? = some r)
        (_ : t.merged = x.sys.merged) (_ : t.chan = x.sys.chan ++ [r.loc]),
        ∃ ds : List (Did H W), ds.foldlM (Did.run o) x.sys.merged = .ok t.merged ∧
          Did.merged ds ++ t.chan = x.sys.chan ++ x.sentBy (.now l) ∧
          Did.owners ds = [XLabel.now l].filter XLabel.isOwner := by
      intro i r h1 hr h2 h3
      refine ⟨[], by rw [h2]; rfl, ?_, rfl⟩
      simp only [XSys.sentBy, h1, Did.merged, h3, hr]
      simp
    have merge_ : ∀ (h : H) (_ : (XLabel.now l).sends = none) (_ : o.add x.sys.merged h = .ok t.merged)
        (_ : x.sys.chan = h :: t.chan),
        ∃ ds : List (Did H W), ds.foldlM (Did.run o) x.sys.merged = .ok t.merged ∧
          Did.merged ds ++ t.chan = x.sys.chan ++ x.sentBy (.now l) ∧
          Did.owners ds = [XLabel.now l].filter XLabel.isOwner := by
      intro h h1 h2 h3
      refine ⟨[.merge h], by rw [fold_one]; exact h2, ?_, rfl⟩
      simp only [XSys.sentBy, h1, Did.merged, h3]
      simp
    cases st with
    | writeSend i r p f hi hp hf => exact send_ i r rfl hi rfl rfl
    | dropSend i r f hi hp hf => exact send_ i r rfl hi rfl rfl
    | idleSend i r p f hi hp hf => exact send_ i r rfl hi rfl rfl
    | drain t h rest m hr he ha => exact merge_ h rfl ha he
    | recv t n k h rest m hr hk he ha => exact merge_ h rfl ha he
    | finalRecv h rest m hr he ha => exact merge_ h rfl ha he
    | _ => exact none_ rfl rfl rfl
  | late l p i r t hi hr hp hq st =>
    rw [deliver_open O]
    have : t.merged = x.sys.merged ∧ t.chan = x.sys.chan := by
      cases st with
      | write => exact ⟨rfl, rfl⟩
      | idlePhaseNew => exact ⟨rfl, rfl⟩
      | idlePhaseOld => exact ⟨rfl, rfl⟩
      | wakePhase => exact ⟨rfl, rfl⟩
      | _ => cases hi
    refine ⟨[], by rw [this.1]; rfl, ?_, rfl⟩
    dsimp only
    rw [this.2]
    simp [Did.merged, XSys.sentBy, XLabel.sends]
  | own w m hc hr hw => exact ⟨[.own w], by rw [fold_one]; exact hw, by simp [Did.merged, XSys.sentBy, XLabel.sends], rfl⟩
  | reset m hc hr hw => exact ⟨[.reset], by rw [fold_one]; exact hw, by simp [Did.merged, XSys.sentBy, XLabel.sends], rfl⟩
  | close => exact absurd rfl hl

/-- C96 (1): from any state to any later one, the merged histogram has become what a program without threads would have made
of it by a certain sequence of calls.  The histograms merged are those that were in the channel and those sent, in this
order, each once, except for the last ones, which are still in the channel.  The other calls are those the owner made, in
the owner's order. -/
theorem C96_merged (ls : List (XLabel W)) (x y : XSys H) (hx : x.closed = false) (hc : XLabel.close ∉ ls)
    (e : xexec o ls x = some (.ok y)) :
    ∃ ds : List (Did H W), ds.foldlM (Did.run o) x.sys.merged = .ok y.sys.merged ∧
      Did.merged ds ++ y.sys.chan = x.sys.chan ++ sentOver o ls x ∧ Did.owners ds = ls.filter XLabel.isOwner := by
  induction ls generalizing x with
  | nil => cases e; exact ⟨[], rfl, by simp [Did.merged, sentOver], rfl⟩
  | cons l ls ih =>
    obtain ⟨t, e1, e2⟩ := xexec_cons e
    have hl : l ≠ .close := by rintro rfl; simp at hc
    have st := xstep_ok e1
    obtain ⟨d1, f1, m1, o1⟩ := did_step hx hl st
    obtain ⟨d2, f2, m2, o2⟩ := ih t (open_step hx hl st) (fun h => hc (by simp [h])) e2
    refine ⟨d1 ++ d2, ?_, ?_, ?_⟩
    · rw [List.foldlM_append, f1]; exact f2
    · rw [did_append.1, List.append_assoc, m2, ← List.append_assoc, m1]
      simp only [sentOver, e1, List.append_assoc]
    · rw [did_append.2, o1, o2, ← List.filter_append]; rfl

/-- what a recorder holds, and what it has written since it last sent something -/
def Since (o : OwnerOps H W) (acc : Nat → List W) (s : Sys H) : Prop :=
  (∀ i r, s.recs[i]? = some r → ∃ g f, o.fresh g = .ok f ∧ (acc i).foldlM (fun h w => o.write w h) f = .ok r.loc) ∧
    ∀ i, s.recs.length ≤ i → acc i = []

theorem since_deliver {acc : Nat → List W} {x : XSys H} {t : Sys H} (h : Since o acc t) :
    Since o acc (x.deliver t).sys := by
  unfold XSys.deliver; dsimp only; split <;> exact h

theorem since_put {acc acc' : Nat → List W} {s t : Sys H} {i : Nat} {r r' : Rec H} (S : Since o acc s)
    (hi : s.recs[i]? = some r) (ht : t.recs = s.recs.set i r') (hother : ∀ j, j ≠ i → acc' j = acc j)
    (hnew : ∃ g f, o.fresh g = .ok f ∧ (acc' i).foldlM (fun h w => o.write w h) f = .ok r'.loc) : Since o acc' t := by
  obtain ⟨hlt, -⟩ := List.getElem?_eq_some_iff.mp hi
  constructor
  · intro j q hj
    rw [ht] at hj
    by_cases c : j = i
    · subst c
      rw [List.getElem?_set_self hlt] at hj
      cases hj; exact hnew
    · rw [List.getElem?_set_ne (Ne.symm c)] at hj
      rw [hother j c]; exact S.1 j q hj
  · intro j hj
    rw [ht, List.length_set] at hj
    rw [hother j (by omega)]; exact S.2 j hj

theorem since_push {acc : Nat → List W} {s t : Sys H} {r' : Rec H} {g : H} (S : Since o acc s)
    (ht : t.recs = s.recs ++ [r']) (hf : o.fresh g = .ok r'.loc) : Since o acc t := by
  constructor
  · intro j q hj
    rw [ht] at hj
    rcases Nat.lt_trichotomy j s.recs.length with c | c | c
    · rw [List.getElem?_append_left c] at hj; exact S.1 j q hj
    · subst c
      rw [List.getElem?_append_right (le_refl _)] at hj
      simp at hj; subst hj
      exact ⟨g, r'.loc, hf, by rw [S.2 _ (le_refl _)]; rfl⟩
    · rw [List.getElem?_eq_none (by simp; omega)] at hj; cases hj
  · intro j hj
    rw [ht] at hj
    exact S.2 j (by simp at hj; omega)

theorem since_step {acc : Nat → List W} {s t : Sys H} {l : Label W} (S : Since o acc s) (st : Step o.toHistOps s l t) :
    Since o (fun i => unsentAfter i (acc i) (.now l)) t := by
  have quiet : ∀ (i : Nat) (r r' : Rec H), s.recs[i]? = some r → t.recs = s.recs.set i r' → r'.loc = r.loc →
      (∀ j, unsentAfter j (acc j) (.now l) = acc j) → Since o (fun i => unsentAfter i (acc i) (.now l)) t := by
    intro i r r' hi ht hloc hacc
    refine since_put S hi ht (fun j _ => hacc j) ?_
    rw [hacc, hloc]; exact S.1 i r hi
  have sends : ∀ (i : Nat) (r r' : Rec H), s.recs[i]? = some r → t.recs = s.recs.set i r' → o.fresh r.loc = .ok r'.loc →
      (∀ j, unsentAfter j (acc j) (.now l) = if some i = some j then [] else acc j) →
      Since o (fun i => unsentAfter i (acc i) (.now l)) t := by
    intro i r r' hi ht hf hacc
    refine since_put S hi ht (fun j hj => ?_) ?_
    · rw [hacc, if_neg (by simpa using Ne.symm hj)]
    · rw [hacc, if_pos rfl]; exact ⟨r.loc, r'.loc, hf, rfl⟩
  have same : ∀ (_ : t.recs = s.recs) (_ : ∀ j, unsentAfter j (acc j) (.now l) = acc j),
      Since o (fun i => unsentAfter i (acc i) (.now l)) t := by
    intro ht hacc
    have : (fun i => unsentAfter i (acc i) (.now l)) = acc := funext hacc
    rw [this]
    exact ⟨by rw [ht]; exact S.1, by rw [ht]; exact S.2⟩
  cases st with
  | write i w r q hi hp hw =>
    refine since_put S hi (r' := _) rfl (fun j hj => ?_) ?_
    · simp only [unsentAfter]; rw [if_neg (Ne.symm hj)]
    · obtain ⟨g, f, hf, h⟩ := S.1 i r hi
      refine ⟨g, f, hf, ?_⟩
      simp only [unsentAfter]
      rw [if_pos trivial, List.foldlM_append, h]
      simp [hw]
  | writeSend i r p f hi hp hf => exact sends i r _ hi rfl hf (fun j => rfl)
  | dropSend i r f hi hp hf => exact sends i r _ hi rfl hf (fun j => rfl)
  | idleSend i r p f hi hp hf => exact sends i r _ hi rfl hf (fun j => rfl)
  | recorder f hlk hrd hf =>
    have : (fun i => unsentAfter i (acc i) (.now Label.recorder)) = acc := rfl
    rw [this]; exact since_push (r' := _) S rfl hf
  | clone i r f hi hlk hp hf =>
    have : (fun j => unsentAfter j (acc j) (.now (Label.clone i))) = acc := rfl
    rw [this]; exact since_push (r' := _) S rfl hf
  | drop i r hi => exact quiet i r _ hi rfl rfl (fun _ => rfl)
  | idle i r hi => exact quiet i r _ hi rfl rfl (fun _ => rfl)
  | idlePhaseNew i r hi => exact quiet i r _ hi rfl rfl (fun _ => rfl)
  | idlePhaseOld i r hi => exact quiet i r _ hi rfl rfl (fun _ => rfl)
  | wake i r hi => exact quiet i r _ hi rfl rfl (fun _ => rfl)
  | wakePhase i r hi => exact quiet i r _ hi rfl rfl (fun _ => rfl)
  | forget i r hi => exact quiet i r _ hi rfl rfl (fun _ => rfl)
  | _ => exact same rfl (fun _ => rfl)

theorem since_xstep {acc : Nat → List W} {x y : XSys H} {l : XLabel W} (S : Since o acc x.sys) (st : XStep o x l y) :
    Since o (fun i => unsentAfter i (acc i) l) y.sys := by
  cases st with
  | now l t hn st => exact since_deliver (since_step S st)
  | late l p i r t hi hr hp hq st =>
    have h := since_step (s := { x.sys with phase := p }) (by exact S) st
    refine since_deliver (t := { t with phase := x.sys.phase }) ?_
    have : (fun i => unsentAfter i (acc i) (.late l p)) = fun i => unsentAfter i (acc i) (.now l) := by
      funext j
      cases l with
      | write => rfl
      | idlePhase => rfl
      | wakePhase => rfl
      | _ => cases hi
    rw [this]; exact h
  | own | reset | close => exact S

theorem since_exec {acc : Nat → List W} {x y : XSys H} {ls : List (XLabel W)} (S : Since o acc x.sys)
    (e : xexec o ls x = some (.ok y)) : Since o (fun i => ls.foldl (unsentAfter i) (acc i)) y.sys := by
  induction ls generalizing x acc with
  | nil => cases e; exact S
  | cons l ls ih =>
    obtain ⟨t, e1, e2⟩ := xexec_cons e
    exact ih (since_xstep S (xstep_ok e1)) e2

/-- C96 (2): what a recorder holds, and so what it sends next, is a new histogram with the writes of this recorder since it
last sent something made to it, in their order; writes of other threads, refreshes and the owner have no influence. -/
theorem C96_local (h : H) (ls : List (XLabel W)) (x : XSys H) (e : xexec o ls (XSys.init h) = some (.ok x)) (i : Nat)
    (r : Rec H) (hr : x.sys.recs[i]? = some r) :
    ∃ g new, o.fresh g = .ok new ∧ (sinceSent i ls).foldlM (fun h w => o.write w h) new = .ok r.loc :=
  (since_exec (acc := fun _ => []) ⟨fun i r h => by simp [XSys.init, Sys.init] at h, fun _ _ => rfl⟩ e).1 i r hr

/-! ## A case: `extDemo` of `Props/SyncExt.lean` -/

example : ∃ x, xexec (OwnerOps.concrete Fp.ideal .u8) extDemo (XSys.init demo) = some (.ok x) ∧
    ((sentOver (OwnerOps.concrete Fp.ideal .u8) extDemo (XSys.init demo)).length = 2 ∧ x.sys.chan.length = 1 ∧
      (extDemo.filter XLabel.isOwner).length = 2 ∧ sinceSent 0 extDemo = [] ∧
      (sinceSent 0 (extDemo.take 8)).length = 3 ∧ (XSys.init demo).closed = false) :=
  xexecThen (by decide +kernel)

example : XLabel.close ∉ extDemo := by simp [extDemo]

end Hdr.Sync
