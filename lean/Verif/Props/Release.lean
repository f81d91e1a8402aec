import Verif.Spec.Release
import Verif.Proofs.Release
import Verif.Props.Panics

/-!
# C81, C82: release builds

The other properties are about the build with overflow checks and debug assertions. C81 carries them over: a release
build does and answers the same wherever that build does not panic, and C80 says where that is. C82 is about the rest.
-/

namespace Hdr

open Release in
theorem Api.Create.step_le (fp : Fp) (st : List AnyHist) (c : Api.Create) :
    Agrees (c.step .debug fp st) (c.step .release fp st) := by
  cases c with
  | newWithBounds T low high sigfig => exact .map (Hist.newWithBounds_le ..)
  | newWithMax T high sigfig => exact .map (Hist.newWithMax_le ..)
  | new T sigfig => exact .map (Hist.new_le ..)
  | newFrom T i =>
    simp only [Api.Create.step]
    cases st[i]? with
    | none => exact .rfl
    | some x => exact .map (Hist.newFrom_le ..)
  | clone i => exact .rfl
  | cloneCorrect i interval =>
    simp only [Api.Create.step]
    cases st[i]? with
    | none => exact .rfl
    | some x => exact .map (Hist.cloneCorrect_le ..)

open Release in
theorem Api.Update.step_le {T : CounterTy} (h : Hdr.Hist T) (u : Api.Update) :
    Agrees (u.step .debug h) (u.step .release h) := by
  cases u with
  | record v => exact .map (Hist.record_le ..)
  | recordN v c => exact .map (Hist.recordN_le ..)
  | saturatingRecord v => exact .map (Hist.saturatingRecord_le ..)
  | saturatingRecordN v c => exact .map (Hist.saturatingRecordN_le ..)
  | recordCorrect v i => exact .map (Hist.recordCorrect_le ..)
  | recordNCorrect v c i => exact .map (Hist.recordNCorrect_le ..)
  | reset => exact .rfl
  | clear => exact .rfl
  | auto b => exact .rfl

open Release in
theorem Api.Combine.step_le {T : CounterTy} (h s : Hdr.Hist T) (c : Api.Combine) :
    Agrees (c.step .debug h s) (c.step .release h s) := by
  cases c with
  | add => exact .map (Hist.add_le ..)
  | subtract => exact .map (Hist.subtract_le ..)
  | setTo => exact .map (Hist.setTo_le ..)
  | addCorrect i => exact .map (Hist.addCorrect_le ..)
  | setToCorrected i => exact .map (Hist.setToCorrected_le ..)

open Release in
theorem Api.Query.step_le {T : CounterTy} (h : Hdr.Hist T) (q : Api.Query) :
    Agrees (q.step .debug h) (q.step .release h) := by
  cases q with
  | min => exact .map (Hist.min_le ..)
  | max => exact .map (Hist.max_le ..)
  | minNz => exact .map (Hist.minNz_le ..)
  | countAt v => exact .map (Hist.countAt_le ..)
  | countBetween lo hi => exact .map (Hist.countBetween_le ..)
  | lowestEquivalent v => exact .map (Hist.lowestEquivalent_le ..)
  | highestEquivalent v => exact .map (Hist.highestEquivalent_le ..)
  | medianEquivalent v => exact .map (Hist.medianEquivalent_le ..)
  | nextNonEquivalent v => exact .map (Hist.nextNonEquivalent_le ..)
  | equivalentRange v => exact .map (Hist.equivalentRange_le ..)
  | equivalent v w => exact .map (Hist.equivalent_le ..)
  | iterRecorded => exact .map (Hist.iterRecorded_le ..)
  | iterAll => exact .map (Hist.iterAll_le ..)
  | serialize junk => exact .map (V2.serialize_le ..)

open Release in
theorem Api.FloatQuery.step_le (lg : F64 → Nat) (fuel : Nat) {T : CounterTy} (h : Hdr.Hist T) (q : Api.FloatQuery) :
    Agrees (q.step .debug lg fuel h) (q.step .release lg fuel h) := by
  cases q with
  | valueAtQuantile q => exact .map (Hist.valueAtQuantile_le ..)
  | valueAtPercentile p => exact .map (Hist.valueAtPercentile_le ..)
  | quantileBelow v => exact .map (Hist.quantileBelow_le ..)
  | percentileBelow v => exact .map (Hist.percentileBelow_le ..)
  | mean => exact .map (Hist.mean_le ..)
  | stdev => exact .map (Hist.stdev_le ..)
  | iterLinear step => exact .map (Hist.iterLinear_le ..)
  | iterLog start base => exact .map (Hist.iterLog_le ..)
  | iterQuantiles ticks => exact .map (Hist.iterQuantiles_le ..)

open Release in
theorem Api.Call.step_le (fp : Fp) (st : List AnyHist) (c : Api.Call) :
    Agrees (c.step .debug fp st) (c.step .release fp st) := by
  cases c with
  | create c => exact c.step_le fp st
  | update i u =>
    simp only [Api.Call.step]
    cases st[i]? with
    | none => exact .rfl
    | some x => exact .map (u.step_le _)
  | combine i j c =>
    simp only [Api.Call.step]
    cases st[i]? with
    | none => exact .rfl
    | some x =>
      cases st[j]? with
      | none => exact .rfl
      | some y =>
        by_cases e : y.T = x.T
        · simp only [dif_pos e]
          exact .map (c.step_le _ _)
        · simp only [dif_neg e]
          exact .rfl
  | query i q =>
    simp only [Api.Call.step]
    cases st[i]? with
    | none => exact .rfl
    | some x => exact .map (q.step_le _)
  | compare i j =>
    simp only [Api.Call.step]
    cases st[i]? with
    | none => exact .rfl
    | some x =>
      cases st[j]? with
      | none => exact .rfl
      | some y =>
        by_cases e : y.T = x.T
        · simp only [dif_pos e]
          exact .map (Hist.eq_le ..)
        · simp only [dif_neg e]
          exact .rfl

open Release in
theorem Api.FullCall.step_le (E : Api.Env) (fuel : Nat) (st : List AnyHist) (c : Api.FullCall) :
    Agrees (c.step .debug E fuel st) (c.step .release E fuel st) := by
  cases c with
  | safe c => exact c.step_le _ _
  | float i q =>
    simp only [Api.FullCall.step]
    cases st[i]? with
    | none => exact .rfl
    | some x => exact .map (q.step_le _ _ _)
  | deserialize T bytes => exact .map (V2.deserialize_le ..)

namespace Api

theorem exec_succ (B : Build) (E : Env) (fuel : Nat) (p : Script) (n : Nat) (w : World) {c : FullCall} (e : p w = some c) :
    exec B E fuel p (n + 1) w =
      (c.step B E fuel w.hists >>= fun r => exec B E fuel p n ⟨r.1, r.2 :: w.answers⟩) := by
  conv_lhs => unfold exec
  rw [e]

theorem exec_none (B : Build) (E : Env) (fuel : Nat) (p : Script) (n : Nat) (w : World) (e : p w = none) :
    exec B E fuel p n w = .ok w := by
  cases n with
  | zero => rfl
  | succ n => conv_lhs => unfold exec
              rw [e]
              rfl

theorem exec_le (E : Env) (fuel : Nat) (p : Script) : ∀ n w,
    Agrees (exec .debug E fuel p n w) (exec .release E fuel p n w) := by
  intro n
  induction n with
  | zero => intro w; exact .rfl
  | succ n ih =>
    intro w
    cases e : p w with
    | none => rw [exec_none _ _ _ _ _ _ e, exec_none _ _ _ _ _ _ e]; exact .rfl
    | some c =>
      rw [exec_succ _ _ _ _ _ _ e, exec_succ _ _ _ _ _ _ e]
      exact .bind (c.step_le ..) fun r => ih _

/-! ### the calls of `Spec/Api` and `Spec/Panics` are those of the debug build, answers dropped -/

theorem Create.run_eq (fp : Fp) (st : List AnyHist) (c : Create) :
    c.run fp st = (·.1) <$> c.step .debug fp st := by
  cases c with
  | newWithBounds T low high sigfig =>
    simp only [Create.run, Create.step, Build.debug]
    rcases Hist.newWithBounds fp T low high sigfig with e | e | h <;> rfl
  | newWithMax T high sigfig =>
    simp only [Create.run, Create.step, Build.debug]
    rcases Hist.newWithMax fp T high sigfig with e | e | h <;> rfl
  | new T sigfig =>
    simp only [Create.run, Create.step, Build.debug]
    rcases Hist.new fp T sigfig with e | e | h <;> rfl
  | newFrom T i =>
    simp only [Create.run, Create.step, Build.debug]
    cases st[i]? with
    | none => rfl
    | some x => dsimp only; cases Hist.newFrom fp T x.h <;> rfl
  | clone i =>
    simp only [Create.run, Create.step]
    cases st[i]? <;> rfl
  | cloneCorrect i interval =>
    simp only [Create.run, Create.step, Build.debug]
    cases st[i]? with
    | none => rfl
    | some x => dsimp only; cases Hist.cloneCorrect fp x.h interval <;> rfl

theorem map_fst {α β : Type} (m : M α) (f : α → β) (g : α → Answer) :
    f <$> m = (·.1) <$> ((fun r => (f r, g r)) <$> m) := by
  cases m <;> rfl

theorem map_id_fst {α : Type} (m : M α) (g : α → Answer) : m = (·.1) <$> ((fun r => (r, g r)) <$> m) := by
  cases m <;> rfl

theorem Update.run_eq {T : CounterTy} (h : Hist T) (u : Update) : u.run h = (·.1) <$> u.step .debug h := by
  cases u with
  | record v => exact map_fst _ _ _
  | recordN v c => exact map_fst _ _ _
  | saturatingRecord v => exact map_id_fst _ _
  | saturatingRecordN v c => exact map_id_fst _ _
  | recordCorrect v i => exact map_fst _ _ _
  | recordNCorrect v c i => exact map_fst _ _ _
  | reset => rfl
  | clear => rfl
  | auto b => rfl

theorem Combine.run_eq {T : CounterTy} (h s : Hist T) (c : Combine) : c.run h s = (·.1) <$> c.step .debug h s := by
  cases c <;> exact map_fst _ _ _

theorem forget_map {α : Type} (m : M α) (f : α → Answer) : forget m = (fun _ => ()) <$> (f <$> m) := by
  cases m <;> rfl

theorem Query.run_eq {T : CounterTy} (h : Hist T) (q : Query) : q.run h = (fun _ => ()) <$> q.step .debug h := by
  cases q <;> exact forget_map _ _

theorem FloatQuery.run_eq (lg : F64 → Nat) (fuel : Nat) {T : CounterTy} (h : Hist T) (q : FloatQuery) :
    q.run lg fuel h = (fun _ => ()) <$> q.step .debug lg fuel h := by
  cases q <;> exact forget_map _ _

theorem Call.run_eq (fp : Fp) (st : List AnyHist) (c : Call) : c.run fp st = (·.1) <$> c.step .debug fp st := by
  cases c with
  | create c => exact c.run_eq fp st
  | update i u =>
    simp only [Call.run, Call.step]
    cases st[i]? with
    | none => rfl
    | some x =>
      dsimp only
      rw [u.run_eq]
      cases u.step .debug x.h <;> rfl
  | combine i j c =>
    simp only [Call.run, Call.step]
    cases st[i]? with
    | none => rfl
    | some x =>
      cases st[j]? with
      | none => rfl
      | some y =>
        by_cases e : y.T = x.T
        · simp only [dif_pos e]
          rw [c.run_eq]
          cases c.step .debug x.h (e ▸ y.h) <;> rfl
        · simp only [dif_neg e]
          rfl
  | query i q =>
    simp only [Call.run, Call.step]
    cases st[i]? with
    | none => rfl
    | some x =>
      dsimp only
      rw [q.run_eq]
      cases q.step .debug x.h <;> rfl
  | compare i j =>
    simp only [Call.run, Call.step]
    cases st[i]? with
    | none => rfl
    | some x =>
      cases st[j]? with
      | none => rfl
      | some y =>
        by_cases e : y.T = x.T
        · simp only [dif_pos e, Build.debug]
          cases x.h.eq (e ▸ y.h) <;> rfl
        · simp only [dif_neg e]
          rfl

/-- the environment of the debug build -/
def Env.debug (E : Env) : Env := { E with checks := true }

theorem FullCall.run_eq (E : Env) (fuel : Nat) (st : List AnyHist) (c : FullCall) :
    c.run E.debug fuel st = (·.1) <$> c.step .debug E fuel st := by
  cases c with
  | safe c => exact c.run_eq _ _
  | float i q =>
    simp only [FullCall.run, FullCall.step]
    cases st[i]? with
    | none => rfl
    | some x =>
      dsimp only
      rw [q.run_eq]
      show _ = (fun x => x.1) <$> ((fun a => (st, a)) <$> q.step .debug E.lg fuel x.h)
      show ((fun _ => ()) <$> q.step .debug E.lg fuel x.h >>= fun _ => pure st) = _
      cases q.step .debug E.lg fuel x.h <;> rfl
  | deserialize T bytes =>
    simp only [FullCall.run, FullCall.step, Build.debug]
    show (V2.deserialize E.fp E.z T true bytes >>= _) = _
    rcases V2.deserialize E.fp E.z T true bytes with e | e | ⟨h, r⟩ <;> rfl

/-! ### giving an iterator more `next` calls than it needs changes nothing -/

theorem iterCollect_fuel {T : CounterTy} {P : Type} (h : Hist T) (pk : Picker P) : ∀ (n n' : Nat), n ≤ n' → ∀ s,
    Agrees (h.iterCollect pk n s) (h.iterCollect pk n' s) := by
  intro n
  induction n with
  | zero => intro n' _ s; exact .err
  | succ n ih =>
    intro n' hn s
    obtain ⟨m, rfl⟩ : ∃ m, n' = m + 1 := ⟨n' - 1, by omega⟩
    unfold Hist.iterCollect
    refine .bind .rfl ?_
    rintro ⟨s', _ | v⟩
    · exact .rfl
    · exact .bind (ih m (by omega) s') fun _ => .rfl

theorem FloatQuery.step_fuel (lg : F64 → Nat) {fuel fuel' : Nat} (hf : fuel ≤ fuel') {T : CounterTy} (h : Hist T)
    (q : FloatQuery) : Agrees (q.step .debug lg fuel h) (q.step .debug lg fuel' h) := by
  cases q with
  | iterLinear step => exact .map (.bind .rfl fun s => iterCollect_fuel h _ _ _ hf s)
  | iterLog start base => exact .map (.bind .rfl fun s => iterCollect_fuel h _ _ _ hf s)
  | iterQuantiles ticks => exact .map (.bind .rfl fun s => iterCollect_fuel h _ _ _ hf s)
  | _ => exact .rfl

theorem FullCall.step_fuel (E : Env) {fuel fuel' : Nat} (hf : fuel ≤ fuel') (st : List AnyHist) (c : FullCall) :
    Agrees (c.step .debug E fuel st) (c.step .debug E fuel' st) := by
  cases c with
  | safe c => exact .rfl
  | float i q =>
    simp only [FullCall.step]
    cases st[i]? with
    | none => exact .rfl
    | some x => exact .map (q.step_fuel _ hf _)
  | deserialize T bytes => exact .rfl

/-- In a state of reachable histograms a call that does not panic ends, with reachable histograms. -/
theorem FullCall.decided (E : Env) (L : Log2Law E.lg) {st : List AnyHist} (G : Good E.fp st) {c : FullCall}
    (hf : c.Fits st) :
    ∃ F, (c.Panics E.debug st → ∀ fuel, F ≤ fuel →
        c.step .debug E fuel st = .error .overflow ∨ c.step .debug E fuel st = .error .assert) ∧
      (¬ c.Panics E.debug st → ∃ st' a, Good E.fp st' ∧ ∀ fuel, F ≤ fuel → c.step .debug E fuel st = .ok (st', a)) := by
  obtain ⟨F, h1, h2⟩ := full_decided E.debug L G hf
  refine ⟨F, fun hc fuel hfu => ?_, fun hc => ?_⟩
  · have := h1 hc fuel hfu
    rw [FullCall.run_eq] at this
    cases e : c.step .debug E fuel st with
    | ok r => rw [e] at this; rcases this with h | h <;> cases h
    | error x => rw [e] at this; rcases this with h | h <;> cases h <;> simp
  · obtain ⟨st', G', h3⟩ := h2 hc
    have := h3 F (Nat.le_refl F)
    rw [FullCall.run_eq] at this
    cases e : c.step .debug E F st with
    | error x => rw [e] at this; cases this
    | ok r =>
      rw [e] at this
      cases this
      exact ⟨r.1, r.2, G', fun fuel hfu => (FullCall.step_fuel E hfu st c).out _ e⟩

end Api

variable {T : CounterTy} {fp : Fp}

/-! ## C81: the same program in both builds -/

/-- C81 (1): one call, in any state: if the debug build does not panic, the release build leaves the same histograms and
gives the same answer. -/
theorem C81_call (E : Api.Env) (fuel : Nat) (st : List AnyHist) (c : Api.FullCall) {r : List AnyHist × Api.Answer}
    (e : c.step .debug E fuel st = .ok r) : c.step .release E fuel st = .ok r :=
  (c.step_le E fuel st).out r e

/-- C81 (2): a whole program, whose calls may depend on the histograms and on all earlier answers: if the debug build comes
to the end without a panic, the release build ends with the same histograms, and all answers were the same. -/
theorem C81_program (E : Api.Env) (fuel : Nat) (p : Api.Script) (n : Nat) (w : Api.World) {w' : Api.World}
    (e : Api.exec .debug E fuel p n w = .ok w') : Api.exec .release E fuel p n w = .ok w' :=
  (Api.exec_le E fuel p n w).out w' e

open Api in
/-- C81 (3): a program calling the whole API does and is told the same in both builds up to the first call that `C80`
lists as panicking (in a build with overflow checks); if it makes no such call, to its end. -/
theorem C81_until (E : Env) (L : Log2Law E.lg) (p : Script) (hp : ∀ w c, p w = some c → c.Fits w.hists) (n : Nat) :
    ∃ F, (∃ w, (∀ x ∈ w.hists, Reachable E.fp x.T x.h) ∧
        ∀ fuel, F ≤ fuel → exec .debug E fuel p n ⟨[], []⟩ = .ok w ∧ exec .release E fuel p n ⟨[], []⟩ = .ok w) ∨
      (∃ k w c, k < n ∧ (∀ x ∈ w.hists, Reachable E.fp x.T x.h) ∧
        (∀ fuel, F ≤ fuel → exec .debug E fuel p k ⟨[], []⟩ = .ok w ∧ exec .release E fuel p k ⟨[], []⟩ = .ok w) ∧
        p w = some c ∧ c.Panics { E with checks := true } w.hists) := by
  have : ∀ (n : Nat) (s : World), Good E.fp s.hists →
      ∃ F, (∃ w, Good E.fp w.hists ∧ ∀ fuel, F ≤ fuel → exec .debug E fuel p n s = .ok w) ∨
      (∃ k w c, k < n ∧ Good E.fp w.hists ∧ (∀ fuel, F ≤ fuel → exec .debug E fuel p k s = .ok w) ∧
        p w = some c ∧ c.Panics E.debug w.hists) := by
    intro n
    induction n with
    | zero => intro s G; exact ⟨0, .inl ⟨s, G, fun _ _ => rfl⟩⟩
    | succ n ih =>
      intro s G
      cases e : p s with
      | none => exact ⟨0, .inl ⟨s, G, fun fuel _ => exec_none _ _ _ _ _ _ e⟩⟩
      | some c =>
        obtain ⟨F1, -, h2⟩ := FullCall.decided E L G (hp s c e)
        by_cases hc : c.Panics E.debug s.hists
        · exact ⟨F1, .inr ⟨0, s, c, by omega, G, fun _ _ => rfl, e, hc⟩⟩
        · obtain ⟨st', a, G', h3⟩ := h2 hc
          obtain ⟨F2, h4⟩ := ih ⟨st', a :: s.answers⟩ G'
          have hgo : ∀ fuel, max F1 F2 ≤ fuel → ∀ k,
              exec .debug E fuel p (k + 1) s = exec .debug E fuel p k ⟨st', a :: s.answers⟩ := by
            intro fuel hf k
            rw [exec_succ _ _ _ _ _ _ e, h3 fuel (by omega), M.ok_bind]
          refine ⟨max F1 F2, ?_⟩
          rcases h4 with ⟨w, Gw, h5⟩ | ⟨k, w, c', hk, Gw, h5, h6, h7⟩
          · exact .inl ⟨w, Gw, fun fuel hf => (hgo fuel hf n).trans (h5 fuel (by omega))⟩
          · exact .inr ⟨k + 1, w, c', by omega, Gw, fun fuel hf => (hgo fuel hf k).trans (h5 fuel (by omega)), h6, h7⟩
  obtain ⟨F, ⟨w, G, h⟩ | ⟨k, w, c, hk, G, h, h1, h2⟩⟩ := this n ⟨[], []⟩ (by intro x hx; cases hx)
  · exact ⟨F, .inl ⟨w, G, fun fuel hf => ⟨h fuel hf, C81_program E fuel p n _ (h fuel hf)⟩⟩⟩
  · exact ⟨F, .inr ⟨k, w, c, hk, G, fun fuel hf => ⟨h fuel hf, C81_program E fuel p k _ (h fuel hf)⟩, h1, h2⟩⟩

open Api in
/-- C81 (4): a program that keeps to the calls of `C51` never panics in a release build either, and does and is told the
same in both builds. -/
theorem C81_never_panics (E : Env) (p : Script)
    (hp : ∀ w c, p w = some c → ∃ c', c = .safe c' ∧ c'.Fits w.hists) (fuel n : Nat) :
    ∃ w, exec .debug E fuel p n ⟨[], []⟩ = .ok w ∧ exec .release E fuel p n ⟨[], []⟩ = .ok w ∧
      ∀ x ∈ w.hists, Reachable E.fp x.T x.h := by
  have : ∀ (n : Nat) (s : World), Good E.fp s.hists → ∃ w, exec .debug E fuel p n s = .ok w ∧ Good E.fp w.hists := by
    intro n
    induction n with
    | zero => intro s G; exact ⟨s, rfl, G⟩
    | succ n ih =>
      intro s G
      cases e : p s with
      | none => exact ⟨s, exec_none _ _ _ _ _ _ e, G⟩
      | some c =>
        obtain ⟨c', rfl, hf⟩ := hp s c e
        obtain ⟨st', h1, G'⟩ := call_ok G hf
        rw [Call.run_eq] at h1
        cases h2 : c'.step .debug E.fp s.hists with
        | error x => rw [h2] at h1; cases h1
        | ok r =>
          rw [h2] at h1
          cases h1
          obtain ⟨w, h3, Gw⟩ := ih ⟨r.1, r.2 :: s.answers⟩ G'
          refine ⟨w, ?_, Gw⟩
          rw [exec_succ _ _ _ _ _ _ e]
          show (c'.step .debug E.fp s.hists >>= _) = _
          rw [h2, M.ok_bind]
          exact h3
  obtain ⟨w, h, G⟩ := this n ⟨[], []⟩ (by intro x hx; cases hx)
  exact ⟨w, h, C81_program E fuel p n _ h, G⟩

/-- C81 (5): the operators, `Sum`, and the compressing serializer. -/
theorem C81_operators (fp : Fp) (z : V2.Zlib) (junk : Nat → UInt8) (h s : Hist T) (v : Nat) (hs : List (Hist T)) :
    (∀ r, h.addAssign s = .ok r → Release.Hist.addAssign h s = .ok r) ∧
    (∀ r, h.subAssign s = .ok r → Release.Hist.subAssign h s = .ok r) ∧
    (∀ r, h.addAssignValue v = .ok r → Release.Hist.addAssignValue h v = .ok r) ∧
    (∀ r, Hist.sum fp hs = .ok r → Release.Hist.sum fp hs = .ok r) ∧
    (∀ r, V2.serializeDeflate z junk h = .ok r → Release.V2.serializeDeflate z junk h = .ok r) :=
  ⟨(Release.Hist.addAssign_le h s).out, (Release.Hist.subAssign_le h s).out, (Release.Hist.addAssignValue_le h v).out,
    (Release.Hist.sum_le fp hs).out, (Release.V2.serializeDeflate_le z junk h).out⟩

theorem not_refused_overflow {m : List UInt8} : ¬ Refused fp T false m .overflow := by
  rintro (⟨e, -, h⟩ | ⟨-, h0, -, p, r, ts, -, -, -, ⟨-, -, h⟩ | ⟨u, r', -, B⟩⟩)
  · cases h
  · cases h
  · generalize hn : Format.unzigzag u = n at B
    generalize ho : Format.Refusal.overflow = o at B
    cases B <;> cases ho

/-- C81 (6): deserialization in a release build never panics. It is `deserialize` with wrapping negation, about which `C67`
and `C70` say for every byte string what it returns. -/
theorem C81_deserialize (fp : Fp) (z : V2.Zlib) (T : CounterTy) (bytes : List UInt8) :
    ∃ r, V2.deserialize fp z T false bytes = .ok r ∧ Release.V2.deserialize fp z T false bytes = .ok r := by
  have hn : ¬ Api.MessagePanics ⟨fp, fun _ => 0, z, false⟩ T bytes := by
    rintro (⟨-, h⟩ | ⟨n, body, -, -, h⟩)
    · exact not_refused_overflow h
    · exact not_refused_overflow h
  obtain ⟨r, hr⟩ := (Api.deserialize_decided ⟨fp, fun _ => 0, z, false⟩ T bytes).2.mp hn
  exact ⟨r, hr, (Release.V2.deserialize_le fp z T false bytes).out r hr⟩

deriving instance DecidableEq for Api.Answer

/-- a program with a failing call, whose last call depends on an earlier answer -/
example : let p : Api.Script := fun w => match w.answers with
      | [] => some (.safe (.create (.newWithBounds .u8 1 15 0)))
      | [_] => some (.safe (.update 0 (.recordN 200 1)))
      | [_, _] => some (.safe (.update 0 (.recordN 9 3)))
      | [_, _, _] => some (.float 0 (.valueAtQuantile (.fin 1)))
      | .nat n :: _ => some (.safe (.query 0 (.countAt n)))
      | _ => none
    (Api.exec .debug ⟨Fp.ideal, fun _ => 0, V2.Zlib.stored, true⟩ 5 p 5 ⟨[], []⟩).toOption.map (·.answers) =
      some [.nat 3, .nat 15, .recorded (.ok ()), .recorded (.error .ValueOutOfRangeResizeDisabled), .created none] := by
  decide +kernel

/-! ## C82: release builds where a debug build panics -/

theorem Release.quantileLoop_cons (h : Hist T) (target : Nat) (z : Bool) (c : Nat) (cs : List Nat) (i total : Nat) :
    Release.Hist.quantileLoop h target z (c :: cs) i total =
      if target ≤ (total + c) % 2 ^ 64 then do
        let v ← Release.Hist.valueFor h i
        if z then Release.Hist.lowestEquivalent h v else Release.Hist.highestEquivalent h v
      else Release.Hist.quantileLoop h target z cs (i + 1) ((total + c) % 2 ^ 64) := rfl

theorem WF.releaseQuantileLoop {h : Hist T} (W : WF fp h) (target : Nat) (z : Bool) :
    ∀ (cs : List Nat) (i total : Nat), i + cs.length ≤ h.counts.length → total < 2 ^ 64 →
      (∃ k, k < cs.length ∧ target ≤ (total + (cs.take (k + 1)).sum) % 2 ^ 64 ∧
        (∀ j, j < k → (total + (cs.take (j + 1)).sum) % 2 ^ 64 < target) ∧
        Release.Hist.quantileLoop h target z cs i total = .ok (if z then h.lval (i + k) else h.lhi (h.lval (i + k)))) ∨
      ((∀ j, j < cs.length → (total + (cs.take (j + 1)).sum) % 2 ^ 64 < target) ∧
        Release.Hist.quantileLoop h target z cs i total = .ok 0) := by
  intro cs
  induction cs with
  | nil => intro i total _ _; right; exact ⟨fun j hj => absurd hj (by simp), rfl⟩
  | cons c cs ih =>
    intro i total hi ht
    rw [List.length_cons] at hi
    have hsum : ∀ j, (total + ((c :: cs).take (j + 1)).sum) % 2 ^ 64 = ((total + c) % 2 ^ 64 + (cs.take j).sum) % 2 ^ 64 := by
      intro j
      rw [List.take_succ_cons, List.sum_cons, Nat.mod_add_mod, Nat.add_assoc]
    have h0 : (total + ((c :: cs).take (0 + 1)).sum) % 2 ^ 64 = (total + c) % 2 ^ 64 := by
      rw [hsum, List.take_zero, List.sum_nil, Nat.add_zero, Nat.mod_mod]
    rw [Release.quantileLoop_cons]
    by_cases hc : target ≤ (total + c) % 2 ^ 64
    · rw [if_pos hc]
      left
      refine ⟨0, by simp, by rw [h0]; exact hc, fun j hj => absurd hj (by omega), ?_⟩
      have L := W.toLayoutOK
      have hlt : i < h.counts.length := by omega
      rw [(Release.Hist.valueFor_le h i).out _ (valueFor_eq L (lt_of_lt_of_le hlt W.len_le_all)), M.ok_bind, Nat.add_zero]
      cases z with
      | true =>
        rw [if_pos rfl, if_pos rfl, (Release.Hist.lowestEquivalent_le h _).out _ (lowestEquivalent_eq L (W.lval_le' hlt))]
        exact congrArg _ Lay.lo_val
      | false =>
        rw [if_neg (by decide), if_neg (by decide),
          (Release.Hist.highestEquivalent_le h _).out _ (highestEquivalent_eq L (W.lval_le' hlt))]
    · rw [if_neg hc]
      rcases ih (i + 1) ((total + c) % 2 ^ 64) (by omega) (Nat.mod_lt _ (by decide)) with ⟨k, k1, k2, k3, k4⟩ | ⟨k1, k2⟩
      · left
        refine ⟨k + 1, by simpa using k1, by rw [hsum]; exact k2, ?_, ?_⟩
        · intro j hj
          cases j with
          | zero => rw [h0]; exact not_le.mp hc
          | succ j => rw [hsum]; exact k3 j (by omega)
        · rw [k4]
          have : i + 1 + k = i + (k + 1) := by omega
          rw [this]
      · right
        refine ⟨?_, k2⟩
        intro j hj
        cases j with
        | zero => rw [h0]; exact not_le.mp hc
        | succ j => rw [hsum]; exact k1 j (by simpa using hj)

theorem atWrappedRank_iff {cs : List Cls} {r : Nat} {c : Cls} : AtWrappedRank cs r c ↔
    ∃ k, cs[k]? = some c ∧ r ≤ wrappedCount (cs.take (k + 1)) ∧ ∀ j, j < k → wrappedCount (cs.take (j + 1)) < r := by
  constructor
  · rintro ⟨pre, post, rfl, h1, h2⟩
    refine ⟨pre.length, by simp, ?_, fun j hj => ?_⟩
    · have : (pre ++ c :: post).take (pre.length + 1) = pre ++ [c] := by
        rw [List.take_append]
        simp
      rw [this]; exact h1
    · have hp : (pre ++ c :: post).take (j + 1) = pre.take (j + 1) := List.take_append_of_le_length (by omega)
      rw [hp, List.take_add_one, List.getElem?_eq_getElem hj]
      exact h2 _ _ (by
        have := List.take_prefix (j + 1) pre
        rwa [List.take_add_one, List.getElem?_eq_getElem hj] at this)
  · rintro ⟨k, hk, h1, h2⟩
    obtain ⟨hlt, hk'⟩ := List.getElem?_eq_some_iff.mp hk
    refine ⟨cs.take k, cs.drop (k + 1), ?_, ?_, ?_⟩
    · rw [← hk', ← List.drop_eq_getElem_cons hlt, List.take_append_drop]
    · rw [List.take_add_one, hk] at h1; exact h1
    · intro pre' d hp
      have e := hp.trans (List.take_prefix k cs)
      have hl := hp.length_le
      rw [List.length_append, List.length_singleton, List.length_take] at hl
      rw [List.prefix_iff_eq_take] at e
      rw [e, List.length_append, List.length_singleton]
      exact h2 _ (by omega)

theorem WF.classes_counts {h : Hist T} (W : WF fp h) {cs : List Cls} (C : Classes h cs) : cs.map (·.count) = h.counts := by
  rw [W.classes_unique C, List.map_map]
  apply List.ext_getElem
  · simp
  · intro i h1 h2
    simp only [List.getElem_map, List.getElem_range]
    show h.counts.getD i 0 = _
    simp [h2]

/-- C82 (1): `value_at_quantile` of a release build never panics. It adds up the counts modulo 2^64, and answers for the
first class where that total is at least the rank; 0 if there is none. -/
theorem C82_value_at_quantile {h : Hist T} (R : Reachable fp T h) {cs : List Cls} (C : Classes h cs) (q : F64) :
    (∃ c, AtWrappedRank cs (specRank h.len q) c ∧
      Release.Hist.valueAtQuantile h q = .ok (if q = .fin 0 then c.lo else c.hi)) ∨
    ((∀ c, ¬ AtWrappedRank cs (specRank h.len q) c) ∧ Release.Hist.valueAtQuantile h q = .ok 0) := by
  have W := R.wf
  have hcounts := W.classes_counts C
  have hlen : cs.length = h.counts.length := by rw [← hcounts, List.length_map]
  have hw : ∀ j, wrappedCount (cs.take j) = (0 + (h.counts.take j).sum) % 2 ^ 64 := by
    intro j
    rw [Nat.zero_add, ← hcounts, ← List.map_take]
    rfl
  have hq : Release.Hist.valueAtQuantile h q =
      Release.Hist.quantileLoop h (specRank h.totalCount q) (F64.feq (Hist.capQuantile q) (.fin 0)) h.counts 0 0 := by
    show Release.Hist.quantileLoop h (h.rankFor (Hist.capQuantile q)) _ _ _ _ = _
    rw [rank_eq W.tot]
  rw [hq, show h.len = h.totalCount from rfl]
  rcases W.releaseQuantileLoop (specRank h.totalCount q) (F64.feq (Hist.capQuantile q) (.fin 0)) h.counts 0 0 (by omega)
    (by decide) with ⟨k, k1, k2, k3, k4⟩ | ⟨k1, k2⟩
  · left
    have hk : cs[k]? = some (h.lcls k) := by
      rw [W.classes_unique C, List.getElem?_map, List.getElem?_range k1]
      rfl
    refine ⟨h.lcls k, atWrappedRank_iff.mpr ⟨k, hk, by rw [hw]; exact k2, fun j hj => by rw [hw]; exact k3 j hj⟩, ?_⟩
    rw [k4, Nat.zero_add]
    have h1 : (h.lcls k).lo = h.lval k := rfl
    have h2 : (h.lcls k).hi = h.lhi (h.lval k) := rfl
    rw [h1, h2]
    by_cases hq : q = .fin 0
    · rw [if_pos hq, if_pos ((feq_cap q).mpr hq)]
    · rw [if_neg hq, if_neg (fun hc => hq ((feq_cap q).mp hc))]
  · right
    refine ⟨fun c hc => ?_, k2⟩
    obtain ⟨k, h1, h2, -⟩ := atWrappedRank_iff.mp hc
    obtain ⟨hlt, -⟩ := List.getElem?_eq_some_iff.mp h1
    rw [hw] at h2
    have := k1 k (by omega)
    omega

/-- what a debug build panics on (`C25_overflow`): one sample at 5 and `u64::MAX` at 100; the total wraps to 0 -/
theorem C82_value_at_quantile_refuted : ∃ h, recordSeq [(5, 1), (100, U64MAX)] demoU = .ok (h, .ok ()) ∧
    h.min = .ok 4 ∧ h.max = .ok 127 ∧ h.valueAtQuantile (.fin 1) = .error .overflow ∧
    Release.Hist.valueAtQuantile h (.fin 1) = .ok 0 :=
  okThen (by decide +kernel)

/-- a histogram of few, wide classes, with one sample at 2^63; the class of that sample ends before 2^63 + 2^59 -/
def demoWide : Hist .u8 :=
  match Hist.newWithBounds Fp.ideal .u8 (2 ^ 56) U64MAX 1 with
  | .ok (.ok h) => (match h.record (2 ^ 63) with
    | .ok (h, _) => h
    | .error _ => h)
  | _ => demo

theorem demoWide_eq : ∃ g, Hist.newWithBounds Fp.ideal .u8 (2 ^ 56) U64MAX 1 = .ok (.ok g) ∧
    g.recordN (2 ^ 63) 1 = .ok (demoWide, .ok ()) := by
  cases e : Hist.newWithBounds Fp.ideal .u8 (2 ^ 56) U64MAX 1 with
  | error x =>
    have : (Hist.newWithBounds Fp.ideal .u8 (2 ^ 56) U64MAX 1).toOption.isSome = true := by decide +kernel
    rw [e] at this
    cases this
  | ok r =>
    cases r with
    | error x =>
      have : ((Hist.newWithBounds Fp.ideal .u8 (2 ^ 56) U64MAX 1).toOption.map fun r => r.toOption.isSome) = some true := by
        decide +kernel
      rw [e] at this
      cases this
    | ok g =>
      refine ⟨g, rfl, ?_⟩
      have : (match Hist.newWithBounds Fp.ideal .u8 (2 ^ 56) U64MAX 1 with
        | .ok (.ok g) => decide (g.recordN (2 ^ 63) 1 = .ok (demoWide, .ok ()))
        | _ => false) = true := by decide +kernel
      rw [e] at this
      exact of_decide_eq_true this

theorem demoWide_reachable : Reachable Fp.ideal .u8 demoWide := by
  obtain ⟨g, h1, h2⟩ := demoWide_eq
  exact .recordN (.newWithBounds (by decide) h1) (by decide) (by decide) h2

/-- `iter_linear` of a release build, when the iterator is at the slot of the largest sample -/
def Release.atMax (m step x l : Nat) : IterState Hist.LinearState :=
  { totalCountToIndex := 1, countSinceLastIteration := 0, countAtIndex := 1, currentIndex := m, lastPickedIndex := some m
    maxValueIndex := m, fresh := false, ended := false, picker := { step := step, highest := x, lowest := l } }

theorem Release.linearMore_eq {h : Hist T} {m b step x l : Nat} (hU : m + 1 ≤ U64MAX)
    (hb : Release.Hist.valueFor h (m + 1) = .ok b) :
    Release.Hist.linearMore h ⟨step, x, l⟩ m = .ok (⟨step, x, l⟩, decide (x < b)) := by
  unfold Release.Hist.linearMore
  rw [if_pos hU]
  show (Release.Hist.valueFor h (m + 1) >>= _) = _
  rw [hb, M.ok_bind]
  rfl

theorem Release.iterNext_atMax {h : Hist T} {m b step x l : Nat} (hm : m < h.distinctValues) (hU : m + 1 ≤ U64MAX)
    (hb : Release.Hist.valueFor h (m + 1) = .ok b) {r : IterPass Hist.LinearState}
    (hr : (if x < b then Release.Hist.iterPick h (Release.Hist.linearPicker h) (Release.atMax m step x l)
      else .ok (.finished { Release.atMax m step x l with ended := true })) = .ok r) :
    Release.Hist.iterPass h (Release.Hist.linearPicker h) (Release.atMax m step x l) = .ok r := by
  unfold Release.Hist.iterPass
  rw [if_neg (show ¬ (Release.atMax m step x l).currentIndex = h.distinctValues from Nat.ne_of_lt hm)]
  rw [if_pos (show Hist.pickedMax (Release.atMax m step x l) = true from decide_eq_true (Nat.le_refl m))]
  show (Release.Hist.linearMore h ⟨step, x, l⟩ m >>= _) = _
  rw [Release.linearMore_eq hU hb, M.ok_bind]
  by_cases hx : x < b
  · rw [if_pos hx] at hr
    rw [decide_eq_true hx]
    exact hr
  · rw [if_neg hx] at hr
    rw [decide_eq_false hx]
    exact hr

theorem Release.linear_again {h : Hist T} {m a b c step x l l' : Nat} (hm : m < h.distinctValues) (hU : m + 1 ≤ U64MAX)
    (hc : h.countAtIndex m = some c) (ha : Release.Hist.valueFor h m = .ok a) (hb : Release.Hist.valueFor h (m + 1) = .ok b)
    (hx : x < b) (hl : l ≤ a) (hlo : Release.Hist.lowestEquivalent h ((x + step) % 2 ^ 64) = .ok l')
    {i : Nat} (hi : h.lastIndex = .ok i) :
    ∃ v : IterValue, v.valueIteratedTo = x ∧
      Release.Hist.iterNext h (Release.Hist.linearPicker h) (Release.atMax m step x l) =
        .ok (Release.atMax m step ((x + step) % 2 ^ 64) l', some v) := by
  have hp : Release.Hist.linearPick h ⟨step, x, l⟩ m = .ok (⟨step, (x + step) % 2 ^ 64, l'⟩, some ⟨none, some x⟩) := by
    unfold Release.Hist.linearPick
    rw [ha, M.ok_bind, hi, M.ok_bind, if_pos (Or.inl hl)]
    have hadd : Release.addU64 x step = .ok ((x + step) % 2 ^ 64) := rfl
    simp only [hadd, M.ok_bind, hlo]
    rfl
  have hpick : ∃ v : IterValue, v.valueIteratedTo = x ∧
      Release.Hist.iterPick h (Release.Hist.linearPicker h) (Release.atMax m step x l) =
        .ok (.emitted (Release.atMax m step ((x + step) % 2 ^ 64) l') v) := by
    unfold Release.Hist.iterPick
    show ∃ v : IterValue, v.valueIteratedTo = x ∧ (Release.Hist.linearPick h ⟨step, x, l⟩ m >>= _) = _
    rw [hp]
    simp only [M.ok_bind]
    unfold Release.Hist.iterEmit
    simp only [Release.atMax, hc, expectM, M.ok_bind, M.pure_eq]
    exact ⟨_, rfl, rfl⟩
  obtain ⟨v, hv, hpk⟩ := hpick
  refine ⟨v, hv, ?_⟩
  have hpass := Release.iterNext_atMax (r := .emitted (Release.atMax m step ((x + step) % 2 ^ 64) l') v) hm hU hb
    (by rw [if_pos hx]; exact hpk)
  show Release.Hist.iterNextLoop h _ (h.distinctValues + 1 + 1) _ = _
  unfold Release.Hist.iterNextLoop
  rw [if_neg (show ¬ (Release.atMax m step x l).ended = true from Bool.false_ne_true), hpass]
  rfl

theorem Release.linear_ends {h : Hist T} {m b step x l : Nat} (hm : m < h.distinctValues) (hU : m + 1 ≤ U64MAX)
    (hb : Release.Hist.valueFor h (m + 1) = .ok b) (hx : ¬ x < b) :
    ∃ s, Release.Hist.iterNext h (Release.Hist.linearPicker h) (Release.atMax m step x l) = .ok (s, none) := by
  have hpass := Release.iterNext_atMax (r := .finished { Release.atMax m step x l with ended := true }) hm hU hb
    (by rw [if_neg hx])
  refine ⟨{ Release.atMax m step x l with ended := true }, ?_⟩
  show Release.Hist.iterNextLoop h _ (h.distinctValues + 1 + 1) _ = _
  unfold Release.Hist.iterNextLoop
  rw [if_neg (show ¬ (Release.atMax m step x l).ended = true from Bool.false_ne_true), hpass]
  rfl

deriving instance DecidableEq for Hist.LinearState
deriving instance DecidableEq for IterState

/-- 2^63, 1, 2^63 + 2, 3, 2^63 + 4, 5, ... -/
def wrapLevel (k : Nat) : Nat := if k % 2 = 0 then 2 ^ 63 + k else k

theorem wrapLevel_succ {k : Nat} (hk : k < 2 ^ 59) : (wrapLevel k + (2 ^ 63 + 1)) % 2 ^ 64 = wrapLevel (k + 1) := by
  unfold wrapLevel
  norm_num at hk ⊢
  split <;> split <;> omega

theorem demoWide_slot : (64 < demoWide.distinctValues) ∧ demoWide.countAtIndex 64 = some 1 ∧
    Release.Hist.valueFor demoWide 64 = .ok (2 ^ 63) ∧ Release.Hist.valueFor demoWide 65 = .ok (2 ^ 63 + 2 ^ 59) ∧
    demoWide.lastIndex = .ok 79 ∧ demoWide.llo (2 ^ 63 + 2 ^ 59 - 1) = 2 ^ 63 := by decide +kernel

theorem demoWide_lowest {x : Nat} (hx : x ≤ U64MAX) :
    Release.Hist.lowestEquivalent demoWide x = .ok (demoWide.llo x) :=
  (Release.Hist.lowestEquivalent_le _ _).out _ (lowestEquivalent_eq demoWide_reachable.wf.toLayoutOK hx)

theorem demoWide_collect : ∀ n k, k + n = 2 ^ 59 → ∃ vs,
    Release.Hist.iterCollect demoWide (Release.Hist.linearPicker demoWide) (n + 1)
      (Release.atMax 64 (2 ^ 63 + 1) (wrapLevel k) (demoWide.llo (wrapLevel k))) = .ok vs ∧
    vs.length = n ∧ ∀ j, j < n → vs[j]?.map (·.valueIteratedTo) = some (wrapLevel (k + j)) := by
  obtain ⟨s1, s2, s3, s4, s5, s6⟩ := demoWide_slot
  intro n
  induction n with
  | zero =>
    intro k hk
    refine ⟨[], ?_, rfl, fun j hj => absurd hj (by omega)⟩
    have hx : ¬ wrapLevel k < 2 ^ 63 + 2 ^ 59 := by
      rw [Nat.add_zero] at hk
      rw [hk]
      decide
    obtain ⟨s, hs⟩ := Release.linear_ends (step := 2 ^ 63 + 1) (l := demoWide.llo (wrapLevel k)) s1 (by decide) s4 hx
    unfold Release.Hist.iterCollect
    rw [hs]
    rfl
  | succ n ih =>
    intro k hk
    have hk' : k < 2 ^ 59 := by omega
    have hx : wrapLevel k < 2 ^ 63 + 2 ^ 59 := by
      unfold wrapLevel
      norm_num at hk' ⊢
      split <;> omega
    have hl : demoWide.llo (wrapLevel k) ≤ 2 ^ 63 := by
      rw [← s6]
      exact Lay.lo_mono (by omega)
    have hU : wrapLevel (k + 1) ≤ U64MAX := by
      unfold wrapLevel U64MAX
      norm_num at hk' ⊢
      split <;> omega
    obtain ⟨v, hv, hnext⟩ := Release.linear_again (step := 2 ^ 63 + 1) (l := demoWide.llo (wrapLevel k)) s1 (by decide) s2 s3 s4
      hx hl (by rw [wrapLevel_succ hk']; exact demoWide_lowest hU) s5
    rw [wrapLevel_succ hk'] at hnext
    obtain ⟨vs, h1, h2, h3⟩ := ih (k + 1) (by omega)
    refine ⟨v :: vs, ?_, by rw [List.length_cons, h2], ?_⟩
    · rw [Release.Hist.iterCollect]
      rw [hnext, M.ok_bind]
      show (Release.Hist.iterCollect _ _ (n + 1) _ >>= _) = _
      rw [h1]
      rfl
    · intro j hj
      cases j with
      | zero => rw [Nat.add_zero, ← hv]; rfl
      | succ j =>
        rw [List.getElem?_cons_succ, h3 j (by omega)]
        congr 2
        omega

theorem demoWide_first : (match Release.Hist.linearNew demoWide (2 ^ 63 + 1) with
    | .ok s => (match Release.Hist.iterNext demoWide (Release.Hist.linearPicker demoWide) s with
      | .ok (s, some v) => decide (s = Release.atMax 64 (2 ^ 63 + 1) (wrapLevel 1) (demoWide.llo (wrapLevel 1)) ∧
          v.valueIteratedTo = wrapLevel 0)
      | _ => false)
    | _ => false) = true := by decide +kernel

/-- C82 (2): with one sample, at 2^63, `iter_linear(2^63 + 1)` is to give one item, for the level 2^63 that is not below
the sample, and then end; a debug build panics. A release build gives 2^59 items, for the levels 2^63, 1, 2^63 + 2, 3, ... -/
theorem C82_iter_linear_refuted :
    (∃ g, Hist.newWithBounds Fp.ideal .u8 (2 ^ 56) U64MAX 1 = .ok (.ok g) ∧
      g.recordN (2 ^ 63) 1 = .ok (demoWide, .ok ())) ∧
    LinearSteps demoWide (2 ^ 63 + 1) 1 ∧ demoWide.iterLinear (2 ^ 63 + 1) 10 = .error .overflow ∧
    ∃ vs, Release.Hist.iterLinear demoWide (2 ^ 63 + 1) (2 ^ 59 + 1) = .ok vs ∧ vs.length = 2 ^ 59 ∧
      ∀ j, j < 2 ^ 59 → vs[j]?.map (·.valueIteratedTo) = some (if j % 2 = 0 then 2 ^ 63 + j else j) := by
  refine ⟨demoWide_eq, ?_, by decide +kernel, ?_⟩
  · refine ⟨⟨by decide, ?_, ?_⟩, fun j hj => hj.1⟩
    · intro m l hm hl
      rw [show demoWide.max = .ok (2 ^ 63 + 2 ^ 59 - 1) by decide +kernel] at hm
      cases hm
      rw [show demoWide.lowestEquivalent (2 ^ 63 + 2 ^ 59 - 1) = .ok (2 ^ 63) by decide +kernel] at hl
      cases hl
      decide
    · rintro ⟨hc, -⟩
      exact absurd hc (by decide +kernel)
  · have h0 := demoWide_first
    cases e0 : Release.Hist.linearNew demoWide (2 ^ 63 + 1) with
    | error x => rw [e0] at h0; cases h0
    | ok s =>
      rw [e0] at h0
      dsimp only at h0
      cases e1 : Release.Hist.iterNext demoWide (Release.Hist.linearPicker demoWide) s with
      | error x => rw [e1] at h0; cases h0
      | ok r =>
        obtain ⟨s', o⟩ := r
        cases o with
        | none => rw [e1] at h0; cases h0
        | some v =>
          rw [e1] at h0
          obtain ⟨h1, h2⟩ := of_decide_eq_true h0
          obtain ⟨vs, h3, h4, h5⟩ := demoWide_collect (2 ^ 59 - 1) 1 (by decide)
          refine ⟨v :: vs, ?_, ?_, ?_⟩
          · unfold Release.Hist.iterLinear
            rw [e0, M.ok_bind, Release.Hist.iterCollect, e1, M.ok_bind]
            dsimp only
            rw [h1]
            have : (2 : Nat) ^ 59 = 2 ^ 59 - 1 + 1 := by decide
            rw [this, h3]
            rfl
          · rw [List.length_cons, h4]
            decide
          · intro j hj
            cases j with
            | zero => exact congrArg some h2
            | succ j =>
              rw [List.getElem?_cons_succ, h5 j (by omega), Nat.add_comm 1 j]
              rfl

/-- C82 (3): the assertions on the arguments of the iterators hold in release builds too. -/
theorem C82_assertions (h : Hist T) (lg : F64 → Nat) (start : Nat) (base : F64) (hb : F64.lt (.fin 1) base = false)
    (fuel : Nat) :
    Release.Hist.iterLinear h 0 fuel = .error .assert ∧ Release.Hist.iterLog h 0 base fuel = .error .assert ∧
    Release.Hist.iterLog h start base fuel = .error .assert ∧ Release.Hist.iterQuantiles lg h 0 fuel = .error .assert := by
  refine ⟨rfl, rfl, ?_, rfl⟩
  unfold Release.Hist.iterLog Release.Hist.logNew
  rw [hb]
  by_cases hs : 0 < start
  · rw [decide_eq_true hs]; rfl
  · rw [decide_eq_false hs]; rfl

end Hdr
