import Verif.Props.Width
import Verif.Props.Refuse

/-!
# The deserializer on every target and every message: C76, C79
-/

namespace Hdr

open V2

variable {T : CounterTy} {fp : Fp} {t : Target}

namespace V2

/-! ## One number -/

theorem onDecodedNumOn_exact (checks : Bool) (s : DecodeState T) (n : Int) (ht : t.usizeMax ≤ U64MAX) :
    onDecodedNumOn t checks s n = onDecodedNum checks s n >>= fun x => match x with
      | .error e => .ok (.error e)
      | .ok s' => if t.usizeMax < s'.destIndex then .ok (.error .UsizeTypeTooSmall) else .ok (.ok s') := by
  obtain ⟨-, h2⟩ := onDecodedNumOn_sim (t := t) checks s n ht
  have adv : ∀ (u : DecodeState T) (k : Nat) (e : DeserializeError), advance u k = .error e → advanceOn t u k = .error e := by
    intro u k e h
    rw [advanceOn_eq ht]
    unfold advance at h ⊢
    split at h
    · cases h
    · rename_i hk
      rw [if_pos (by omega)]; exact h
  cases hd : onDecodedNum checks s n with
  | ok x =>
    cases x with
    | ok s' => exact (h2 s' hd).2
    | error e =>
      simp only [M.ok_bind]
      unfold onDecodedNum at hd
      unfold onDecodedNumOn
      by_cases hn : n < 0
      · rw [if_pos hn] at hd ⊢
        cases hz : negI64 checks n with
        | error e => rw [hz] at hd; cases hd
        | ok z =>
          rw [hz] at hd
          simp only [M.ok_bind] at hd ⊢
          cases hu : Hdr.toUsize z with
          | none => rw [hu] at hd; exact hd
          | some k =>
            rw [hu] at hd
            simp only [M.pure_eq, Except.ok.injEq, Option.bind_some] at hd ⊢
            have he := adv _ _ _ hd
            by_cases hk : k ≤ t.usizeMax
            · rw [Target.toUsize_some hk]
              simp only [he]
            · rw [Target.toUsize_none (by omega)]
              unfold advance at hd
              split at hd
              · cases hd
              · cases hd; rfl
      · rw [if_neg hn] at hd ⊢
        simp only [M.pure_eq, Except.ok.injEq] at hd ⊢
        unfold onCount at hd
        unfold onCountOn
        split at hd
        · rename_i h1
          rw [if_pos h1]
          split at hd
          · rename_i h3
            rw [if_pos h3]
            cases hset : setCountAtIndex s.h s.destIndex n.toNat with
            | none => rw [hset] at hd; exact hd
            | some h => rw [hset] at hd; exact adv _ _ _ hd
          · rename_i h3
            rw [if_neg h3]; exact adv _ _ _ hd
        · rename_i h1
          rw [if_neg h1]; exact hd
  | error p =>
    unfold onDecodedNum at hd
    unfold onDecodedNumOn
    by_cases hn : n < 0
    · rw [if_pos hn] at hd ⊢
      cases hz : negI64 checks n with
      | error e => rw [hz] at hd; exact hd
      | ok z =>
        rw [hz] at hd
        simp only [M.ok_bind] at hd
        split at hd <;> cases hd
    · rw [if_neg hn] at hd
      cases hd

/-! ## The two loops are one -/

theorem slowLoopOn_succ (checks : Bool) (fuel : Nat) (r : List UInt8) (s : DecodeState T) :
    slowLoopOn t checks (fuel + 1) r s =
      if r = [] then pure (.ok s)
      else match varintRead r with
        | none => pure (.error .IoError)
        | some (zz, r) => onDecodedNumOn t checks s (zigZagDecode zz) >>= fun x => match x with
          | .error e => pure (.error e)
          | .ok s => slowLoopOn t checks fuel r s := by rfl

theorem fastLoopOn_succ (checks : Bool) (payload : List UInt8) (fuel i : Nat) (s : DecodeState T) :
    fastLoopOn t checks payload (fuel + 1) i s =
      if i < payload.length - 9 then
        varintReadSlice ((payload.drop i).take 9) >>= fun p =>
          onDecodedNumOn t checks s (zigZagDecode p.1) >>= fun x => match x with
            | .error e => pure (.error e)
            | .ok s => fastLoopOn t checks payload fuel (i + p.2) s
      else pure (.ok (i, s)) := by rfl

theorem slowLoopOn_stable (checks : Bool) (n : Nat) : ∀ (r : List UInt8) (s : DecodeState T) (f g : Nat),
    r.length ≤ n → r.length < f → r.length < g → slowLoopOn t checks f r s = slowLoopOn t checks g r s := by
  induction n with
  | zero =>
    intro r s f g h1 h2 h3
    obtain ⟨f, rfl⟩ : ∃ k, f = k + 1 := ⟨f - 1, by omega⟩
    obtain ⟨g, rfl⟩ : ∃ k, g = k + 1 := ⟨g - 1, by omega⟩
    have : r = [] := List.length_eq_zero_iff.mp (by omega)
    rw [slowLoopOn_succ, slowLoopOn_succ, if_pos this, if_pos this]
  | succ n ih =>
    intro r s f g h1 h2 h3
    obtain ⟨f, rfl⟩ : ∃ k, f = k + 1 := ⟨f - 1, by omega⟩
    obtain ⟨g, rfl⟩ : ∃ k, g = k + 1 := ⟨g - 1, by omega⟩
    rw [slowLoopOn_succ, slowLoopOn_succ]
    by_cases hr : r = []
    · rw [if_pos hr, if_pos hr]
    rw [if_neg hr, if_neg hr]
    cases hv : varintRead r with
    | none => rfl
    | some p =>
      obtain ⟨zz, r'⟩ := p
      rw [varintRead_eq] at hv
      obtain ⟨-, p, hp, hp1, -⟩ := unleb_bound _ _ _ _ hv
      have hl : r'.length < r.length := by rw [hp, List.length_append]; omega
      simp only
      congr 1
      funext x
      cases x with
      | error e => rfl
      | ok s => exact ih r' s f g (by omega) (by omega) (by omega)

theorem fast_slowOn (checks : Bool) (payload : List UInt8) (n : Nat) :
    ∀ (i : Nat) (s : DecodeState T) (f g : Nat), i ≤ payload.length → payload.length - i ≤ n →
      payload.length - i < f → payload.length - i < g →
    (fastLoopOn t checks payload f i s >>= fun x => match x with
      | .error e => (pure (.error e) : M (Except DeserializeError (DecodeState T)))
      | .ok (i, s) => slowLoopOn t checks (payload.length + 1) (payload.drop i) s) =
    slowLoopOn t checks g (payload.drop i) s := by
  induction n with
  | zero =>
    intro i s f g h0 h1 h2 h3
    obtain ⟨f, rfl⟩ : ∃ k, f = k + 1 := ⟨f - 1, by omega⟩
    rw [fastLoopOn_succ, if_neg (by omega), M.pure_eq, M.ok_bind]
    simp only
    exact slowLoopOn_stable checks (payload.length) _ _ _ _ (by simp) (by simp; omega) (by simp; omega)
  | succ n ih =>
    intro i s f g h0 h1 h2 h3
    obtain ⟨f, rfl⟩ : ∃ k, f = k + 1 := ⟨f - 1, by omega⟩
    rw [fastLoopOn_succ]
    by_cases hi : i < payload.length - 9
    swap
    · rw [if_neg hi, M.pure_eq, M.ok_bind]
      simp only
      exact slowLoopOn_stable checks (payload.length) _ _ _ _ (by simp) (by simp; omega) (by simp; omega)
    rw [if_pos hi]
    obtain ⟨x, k, -, hu, hk9, hk1, hrs⟩ := unleb_take9 (payload.drop i) (by simp; omega)
    obtain ⟨g, rfl⟩ : ∃ k, g = k + 1 := ⟨g - 1, by omega⟩
    rw [hrs, M.ok_bind, slowLoopOn_succ, if_neg (by intro h; have := congrArg List.length h; simp at this; omega),
      varintRead_eq, hu]
    simp only
    rw [M.bind_assoc]
    congr 1
    funext y
    cases y with
    | error e => rfl
    | ok s' =>
      simp only
      rw [ih (i + k) s' f g (by omega) (by omega) (by omega) (by omega), List.drop_drop]

theorem decodePayloadOn_eq (checks : Bool) (h : Hist T) (payload : List UInt8) (g : Nat) (hg : payload.length < g) :
    decodePayloadOn t checks h payload =
      slowLoopOn t checks g payload ⟨0, Hist.RestatState.new, h⟩ >>= fun x => match x with
        | .error e => pure (.error e)
        | .ok s => s.restat.updateHistogram s.h >>= fun h => pure (.ok h) := by
  have e := fast_slowOn (t := t) checks payload payload.length 0 (⟨0, Hist.RestatState.new, h⟩ : DecodeState T)
    (payload.length + 1) g (by omega) (by omega) (by omega) (by omega)
  rw [List.drop_zero] at e
  rw [← e]
  unfold decodePayloadOn
  rw [M.bind_assoc]
  congr 1
  funext x
  cases x with
  | error e => rfl
  | ok p => rfl

/-! ## When the position leaves `usize` -/

/-- some numbers at the beginning are stored, and then the position is beyond `limit` -/
def OverrunsFrom (checks : Bool) (limit : Nat) (r : List UInt8) (s : DecodeState T) : Prop :=
  ∃ p q ts s', r = p ++ q ∧ Format.Numbers p ts ∧ steps checks ts s = .ok (.ok s') ∧ limit < s'.destIndex

theorem overruns_cons {checks : Bool} {limit u : Nat} {r r' : List UInt8} {s s1 : DecodeState T} (hs : s.destIndex ≤ limit)
    (hr : Format.readLeb 8 r = some (u, r')) (e : onDecodedNum checks s (Format.unzigzag u) = .ok (.ok s1)) :
    OverrunsFrom checks limit r s ↔ limit < s1.destIndex ∨ OverrunsFrom checks limit r' s1 := by
  constructor
  · rintro ⟨p, q, ts, s', rfl, N, e', hd⟩
    cases N with
    | nil => cases e'; omega
    | @cons bs p' v ts h N =>
      rw [readLeb_append q h] at hr
      cases hr
      simp only [steps, e, M.ok_bind] at e'
      exact Or.inr ⟨p', q, ts, s', rfl, N, e', hd⟩
  · obtain ⟨q0, rfl, -, h0⟩ := readLeb_split hr
    rintro (hd | ⟨p, q, ts, s', rfl, N, e', hd⟩)
    · exact ⟨q0, r', [Format.unzigzag u], s1, rfl, .cons h0 .nil, by simp only [steps, e, M.ok_bind], hd⟩
    · refine ⟨q0 ++ p, q, Format.unzigzag u :: ts, s', by simp, ?_, by simp only [steps, e, M.ok_bind]; exact e', hd⟩
      have := readLeb_append p h0
      rw [List.nil_append] at this
      exact .cons this N

theorem overruns_stop {checks : Bool} {limit u : Nat} {r r' : List UInt8} {s : DecodeState T} (hs : s.destIndex ≤ limit)
    (hr : Format.readLeb 8 r = some (u, r')) (e : ∀ s1, onDecodedNum checks s (Format.unzigzag u) ≠ .ok (.ok s1)) :
    ¬ OverrunsFrom checks limit r s := by
  rintro ⟨p, q, ts, s', rfl, N, e', hd⟩
  cases N with
  | nil => cases e'; omega
  | @cons bs p' v ts h N =>
    rw [readLeb_append q h] at hr
    cases hr
    simp only [steps] at e'
    cases he : onDecodedNum checks s (Format.unzigzag u) with
    | error p => rw [he] at e'; cases e'
    | ok x =>
      cases x with
      | error x => rw [he] at e'; cases e'
      | ok s1 => exact e s1 he

theorem overruns_none {checks : Bool} {limit : Nat} {r : List UInt8} {s : DecodeState T} (hs : s.destIndex ≤ limit)
    (hr : Format.readLeb 8 r = none) : ¬ OverrunsFrom checks limit r s := by
  rintro ⟨p, q, ts, s', rfl, N, e', hd⟩
  cases N with
  | nil => cases e'; omega
  | cons h N => rw [readLeb_append q h] at hr; cases hr

theorem slowLoopOn_exact (checks : Bool) (ht : t.usizeMax ≤ U64MAX) (f : Nat) : ∀ (r : List UInt8) (s : DecodeState T),
    s.destIndex ≤ t.usizeMax →
    (¬ OverrunsFrom checks t.usizeMax r s → slowLoopOn t checks f r s = slowLoop checks f r s) ∧
    (OverrunsFrom checks t.usizeMax r s → r.length < f → slowLoopOn t checks f r s = .ok (.error .UsizeTypeTooSmall)) := by
  induction f with
  | zero => intro r s _; exact ⟨fun _ => rfl, fun _ h => absurd h (by omega)⟩
  | succ f ih =>
    intro r s hs
    rw [slowLoopOn_succ, slowLoop_succ]
    by_cases hr : r = []
    · rw [if_pos hr, if_pos hr]
      refine ⟨fun _ => rfl, fun h _ => absurd h (overruns_none hs (by rw [hr]; rfl))⟩
    rw [if_neg hr, if_neg hr, varintRead_eq]
    cases hv : unleb 8 r with
    | none =>
      refine ⟨fun _ => rfl, fun h _ => absurd h (overruns_none hs (by rw [readLeb_eq]; exact hv))⟩
    | some p =>
      obtain ⟨zz, r'⟩ := p
      obtain ⟨hu, q0, hp, hp1, -⟩ := unleb_bound _ _ _ _ hv
      have hl : r'.length < r.length := by rw [hp, List.length_append]; omega
      simp only
      rw [unzigzag_eq (by norm_num at hu ⊢; omega), onDecodedNumOn_exact checks s _ ht]
      rw [← readLeb_eq] at hv
      cases hd : onDecodedNum checks s (Format.unzigzag zz) with
      | error p => exact ⟨fun _ => rfl, fun h _ => absurd h (overruns_stop hs hv (by rw [hd]; intro s1 e; cases e))⟩
      | ok x =>
        cases x with
        | error x => exact ⟨fun _ => rfl, fun h _ => absurd h (overruns_stop hs hv (by rw [hd]; intro s1 e; cases e))⟩
        | ok s1 =>
          rw [overruns_cons hs hv hd]
          simp only [M.ok_bind]
          by_cases h1 : t.usizeMax < s1.destIndex
          · rw [if_pos h1]
            exact ⟨fun h => absurd (Or.inl h1) h, fun _ _ => rfl⟩
          · rw [if_neg h1]
            simp only [M.ok_bind]
            obtain ⟨a, b⟩ := ih r' s1 (by omega)
            exact ⟨fun h => a fun h' => h (Or.inr h'), fun h hf => b (h.resolve_left h1) (by omega)⟩

theorem overruns_iff (checks : Bool) {h : Hist T} (W : WF fp h) (hz : ∀ i, h.counts.getD i 0 = 0) (limit : Nat)
    (payload : List UInt8) :
    OverrunsFrom checks limit payload (⟨0, Hist.RestatState.new, h⟩ : DecodeState T) ↔
      Format.Overruns limit T.max h.counts.length payload := by
  have hU : U64MAX = 18446744073709551615 := rfl
  have I := dinv_init W hz
  constructor
  · rintro ⟨p, q, ts, s', rfl, N, e, hd⟩
    obtain ⟨O, P, -⟩ := (steps_iff checks ts I (by simp)).2 s' e
    refine ⟨p, q, ts, rfl, N, ⟨fun x hx => ?_, ?_, fun i hi => O.zeros i (by simpa using hi)⟩, ?_⟩
    · obtain ⟨h1, h2⟩ := O.range x hx
      have := numbers_range N x hx
      norm_num at this ⊢
      omega
    · have := O.length
      norm_num
      simp at this
      omega
    · have := P.dest
      simp at this
      omega
  · rintro ⟨p, q, ts, rfl, N, F, hd⟩
    obtain ⟨s', e⟩ := (steps_iff checks ts I (by simp)).1 (fits_ok F)
    obtain ⟨-, P, -⟩ := (steps_iff checks ts I (by simp)).2 s' e
    refine ⟨p, q, ts, s', rfl, N, e, ?_⟩
    rw [P.dest]; simpa using hd

/-! ## The message -/

/-- what `deser_v2` makes of the message from its cookie on -/
def afterCookieOn (t : Target) (fp : Fp) (T : CounterTy) (checks : Bool) (m : List UInt8) :
    M (Except DeserializeError (Hist T × List UInt8)) :=
  match readBE 4 m with
  | none => pure (.error .IoError)
  | some (cookie, r) => if cookie ≠ COOKIE then pure (.error .InvalidCookie) else deserV2On t fp T checks r

theorem deserializeOn_afterCookie {z : Zlib} {checks : Bool} {m : List UInt8}
    (h : m.take 4 ≠ Format.bigEndian 4 0x1c849314) : deserializeOn t fp z T checks m = afterCookieOn t fp T checks m := by
  unfold deserializeOn afterCookieOn
  cases e : readBE 4 m with
  | none => rfl
  | some x =>
    obtain ⟨c, r⟩ := x
    simp only
    by_cases hc : c = COOKIE
    · rw [if_pos hc, if_neg (by simpa using hc)]
    · rw [if_neg hc, if_pos hc, if_neg]
      rintro rfl
      apply h
      rw [readBE_exact e, List.take_left' (beBytes_length _ _), bigEndian_eq]
      decide

theorem field_high (m : List UInt8) : Format.field 24 8 m ≤ U64MAX := by
  have := field_lt 24 8 m
  have hU : U64MAX = 18446744073709551615 := rfl
  norm_num at this; omega

theorem readLenOn_eq {m : List UInt8} (h8 : 8 ≤ m.length) : readLenOn t (m.drop 4) =
    if t.usizeMax < Format.field 4 4 m then .error .UsizeTypeTooSmall else .ok () := by
  unfold readLenOn
  rw [readBE_field (by omega)]
  simp only
  by_cases hu : t.usizeMax < Format.field 4 4 m
  · rw [Target.toUsize_none hu, if_pos hu]
  · rw [Target.toUsize_some (by omega), if_neg hu]

/-- the first four checks, and the fifth with the constructor of a 64-bit target -/
theorem afterCookieOn_refused (t : Target) {checks : Bool} {m : List UInt8}
    (hf : ¬ Format.Passes m.length ((Format.checklist (Settings fp) m).take 5)) :
    afterCookieOn t fp T checks m =
      if 8 ≤ m.length ∧ Format.field 0 4 m = 0x1c849313 ∧ t.usizeMax < Format.field 4 4 m then
        .ok (.error .UsizeTypeTooSmall)
      else afterCookie fp T checks m := by
  unfold afterCookieOn afterCookie
  by_cases h4 : m.length < 4
  · rw [if_neg (by omega), show readBE 4 m = none from readBE_short (k := 0) (by norm_num) (by simpa using h4)]
  rw [show readBE 4 m = some (Format.field 0 4 m, m.drop 4) from readBE_field (k := 0) (n := 4) (m := m) (by omega)]
  simp only
  by_cases hc : Format.field 0 4 m = 0x1c849313
  swap
  · have hk : Format.field 0 4 m ≠ COOKIE := hc
    rw [if_pos hk, if_pos hk, if_neg (fun h => hc h.2.1)]
  have hk : ¬ Format.field 0 4 m ≠ COOKIE := fun h => h hc
  rw [if_neg hk, if_neg hk]
  unfold deserV2On deserV2
  by_cases h8 : 8 ≤ m.length
  swap
  · have : readBE 4 (m.drop 4) = none := readBE_short (k := 4) (by norm_num) (by omega)
    rw [if_neg (fun h => h8 h.1), header_fields, if_pos (by omega)]
    unfold readLenOn
    rw [this]
  rw [readLenOn_eq h8]
  by_cases hu : t.usizeMax < Format.field 4 4 m
  · rw [if_pos hu, if_pos ⟨h8, hc, hu⟩]; rfl
  rw [if_neg hu, if_neg (fun h => hu h.2.2)]
  simp only
  rw [header_fields]
  by_cases h12 : m.length < 12
  · rw [if_pos h12]
  rw [if_neg h12]
  by_cases c2 : Format.field 8 4 m ≠ 0
  · rw [if_pos c2]
  rw [if_neg c2]
  by_cases h16 : m.length < 16
  · rw [if_pos h16]
  rw [if_neg h16]
  by_cases c3 : 255 < Format.field 12 4 m
  · rw [if_pos c3]
  rw [if_neg c3]
  by_cases h40 : m.length < 40
  · rw [if_pos h40]
  rw [if_neg h40]
  by_cases c4 : Format.field 32 8 m ≠ 0x3FF0000000000000
  · rw [if_pos c4]
  rw [if_neg c4]
  have c5 : ¬ Settings fp (Format.field 16 8 m) (Format.field 24 8 m) (Format.field 12 4 m) := by
    intro c5
    apply hf
    unfold Format.checklist Format.Passes
    simp only [List.take_succ_cons, List.take_zero, List.forall_mem_cons]
    exact ⟨⟨by omega, hc⟩, ⟨by omega, by simpa using c2⟩, ⟨by omega, by omega⟩, ⟨by omega, by simpa using c4⟩,
      ⟨by omega, c5⟩, by simp⟩
  obtain ⟨x, ex⟩ := constructor_err (T := T) (field_high m) c5
  simp only
  rw [newWithBoundsOn_eq t fp T (field_high m), ex]
  rfl

open Classical in
theorem afterCookieOn_passed (t : Target) {checks : Bool} {m : List UInt8}
    (hp : Format.Passes m.length ((Format.checklist (Settings fp) m).take 5)) {h0 : Hist T}
    (e0 : Hist.newWithBounds fp T (Format.field 16 8 m) (Format.field 24 8 m) (Format.field 12 4 m) = .ok (.ok h0)) :
    afterCookieOn t fp T checks m =
      if t.usizeMax < Format.field 4 4 m then .ok (.error .UsizeTypeTooSmall)
      else if t.usizeMax < h0.distinctValues then .ok (.error .InvalidParameters)
      else if t.allocates T.bytes h0.distinctValues = false then .error .capacity
      else if Format.field 4 4 m ≠ 0 ∧ t.allocates 1 (Format.field 4 4 m) = false then .error .capacity
      else if 40 + Format.field 4 4 m ≤ m.length ∧
          Format.Overruns t.usizeMax T.max h0.distinctValues ((m.drop 40).take (Format.field 4 4 m)) then
        .ok (.error .UsizeTypeTooSmall)
      else afterCookie fp T checks m := by
  unfold Format.checklist Format.Passes at hp
  simp only [List.take_succ_cons, List.take_zero, List.forall_mem_cons] at hp
  obtain ⟨⟨h1, c1⟩, ⟨h2, c2⟩, ⟨h3, c3⟩, ⟨h4, c4⟩, ⟨h5, c5⟩, -⟩ := hp
  obtain ⟨W, e1, -⟩ := newWithBounds_wf (field_high m) e0
  have hz : ∀ i, h0.counts.getD i 0 = 0 := by rw [e1]; exact fresh_getD _ _ _
  have hdv : h0.distinctValues = h0.counts.length := rfl
  unfold afterCookieOn afterCookie
  rw [show readBE 4 m = some (Format.field 0 4 m, m.drop 4) from readBE_field (k := 0) (n := 4) (m := m) (by omega)]
  simp only
  have hk : ¬ Format.field 0 4 m ≠ COOKIE := fun h => h c1
  rw [if_neg hk, if_neg hk]
  unfold deserV2On deserV2
  rw [readLenOn_eq (by omega)]
  by_cases hu : t.usizeMax < Format.field 4 4 m
  · rw [if_pos hu, if_pos hu]; rfl
  rw [if_neg hu, if_neg hu, header_fields, if_neg (by omega), if_neg (by simpa using c2), if_neg (by omega),
    if_neg (by omega), if_neg (by omega), if_neg (by simpa using c4)]
  simp only
  rw [newWithBoundsOn_eq t fp T (field_high m), e0, hdv]
  simp only [Except.bind]
  by_cases k2 : t.usizeMax < h0.counts.length
  · rw [if_pos k2, if_pos k2]; rfl
  rw [if_neg k2, if_neg k2]
  by_cases k3 : t.allocates T.bytes h0.counts.length = false
  · rw [if_neg (by simp [k3]), if_pos k3]; rfl
  rw [if_pos (by simpa using k3), if_neg k3]
  simp only [M.ok_bind]
  have hg : t.grow 1 0 (Format.field 4 4 m) =
      if Format.field 4 4 m ≠ 0 ∧ t.allocates 1 (Format.field 4 4 m) = false then .error .capacity else .ok () := by
    unfold Target.grow
    by_cases hn : Format.field 4 4 m = 0
    · rw [if_pos (by omega), if_neg (fun h => h.1 hn)]
    · rw [if_neg (by omega)]
      cases t.allocates 1 (Format.field 4 4 m) <;> simp [hn]
  rw [hg]
  by_cases k4 : Format.field 4 4 m ≠ 0 ∧ t.allocates 1 (Format.field 4 4 m) = false
  · rw [if_pos k4, if_pos k4]; rfl
  rw [if_neg k4, if_neg k4, M.ok_bind]
  by_cases k5 : 40 + Format.field 4 4 m ≤ m.length
  swap
  · have : readN (Format.field 4 4 m) (m.drop 40) = none := by
      unfold readN
      rw [if_neg (by rw [List.length_drop]; omega)]
    rw [if_neg (fun h => k5 h.1), this]
  have : readN (Format.field 4 4 m) (m.drop 40) =
      some ((m.drop 40).take (Format.field 4 4 m), (m.drop 40).drop (Format.field 4 4 m)) := by
    unfold readN
    rw [if_pos (by rw [List.length_drop]; omega)]
  rw [this]
  simp only
  generalize (m.drop 40).take (Format.field 4 4 m) = payload
  rw [decodePayloadOn_eq checks h0 payload (payload.length + 1) (by omega),
    decodePayload_eq checks h0 payload (payload.length + 1) (by omega)]
  obtain ⟨a, b⟩ := slowLoopOn_exact (t := t) checks (usizeMax_le t) (payload.length + 1) payload
    (⟨0, Hist.RestatState.new, h0⟩ : DecodeState T) (by simp)
  rw [overruns_iff checks W hz] at a b
  by_cases k6 : Format.Overruns t.usizeMax T.max h0.counts.length payload
  · rw [if_pos ⟨k5, k6⟩, b k6 (by omega)]; rfl
  · rw [if_neg (fun h => k6 h.2), a k6]; rfl

theorem deserializeOn_inflated {z : Zlib} {checks : Bool} {body : List UInt8} {n : Nat} (hn : n < 2 ^ 32) :
    deserializeOn t fp z T checks (Format.bigEndian 4 0x1c849314 ++ Format.bigEndian 4 n ++ body) =
      if t.usizeMax < n then .ok (.error .UsizeTypeTooSmall)
      else afterCookieOn t fp T checks (z.inflate (body.take n)) >>= fun x => match x with
        | .error e => pure (.error e)
        | .ok (h, _) => pure (.ok (h, body.drop ((body.take n).length - z.unread (body.take n)))) := by
  have e0 : deserializeOn t fp z T checks (Format.bigEndian 4 0x1c849314 ++ Format.bigEndian 4 n ++ body) =
      deserV2CompressedOn t fp z T checks (be32 n ++ body) := by
    unfold deserializeOn
    rw [bigEndian_eq, bigEndian_eq, List.append_assoc, readBE_be 4 _ _ (by norm_num)]
    simp only
    rw [if_neg (by decide), if_pos (by decide)]; rfl
  rw [e0]
  have hb : readBE 4 (be32 n ++ body) = some (n, body) := readBE_be 4 _ _ (by norm_num at hn ⊢; omega)
  unfold deserV2CompressedOn readLenOn afterCookieOn
  rw [hb]
  simp only
  by_cases hu : t.usizeMax < n
  · rw [Target.toUsize_none hu, if_pos hu]; rfl
  rw [Target.toUsize_some (by omega), if_neg hu]
  simp only
  cases readBE 4 (z.inflate (body.take n)) with
  | none => rfl
  | some p =>
    obtain ⟨c, r⟩ := p
    simp only
    by_cases hc : c ≠ COOKIE
    · rw [if_pos hc, if_pos hc]; rfl
    · rw [if_neg hc, if_neg hc]; rfl

end V2

/-! ## C76, C79 -/

/-- C76 (8): the deserializer on any target and any message that is not compressed. If the first five checks (those up to
the constructor) do not all hold, it answers as on a 64-bit target, unless the cookie is right and the length announced
is not a `usize`. -/
theorem C76_deserialize_header (t : Target) {z : Zlib} {checks : Bool} {m : List UInt8}
    (hc : m.take 4 ≠ Format.bigEndian 4 0x1c849314)
    (hf : ¬ Format.Passes m.length ((Format.checklist (Settings fp) m).take 5)) :
    deserializeOn t fp z T checks m =
      if 8 ≤ m.length ∧ Format.field 0 4 m = 0x1c849313 ∧ t.usizeMax < Format.field 4 4 m then
        .ok (.error .UsizeTypeTooSmall)
      else deserialize fp z T checks m := by
  rw [deserializeOn_afterCookie hc, deserialize_afterCookie hc]
  exact afterCookieOn_refused t hf

/-- a message that ends after announcing 16 bytes, which 4 bits do not count -/
example : (be32 COOKIE ++ be32 16).take 4 ≠ Format.bigEndian 4 0x1c849314 ∧
    ¬ Format.Passes (be32 COOKIE ++ be32 16).length ((Format.checklist (Settings Fp.ideal) (be32 COOKIE ++ be32 16)).take 5) ∧
    deserializeOn (.generous 4) Fp.ideal Zlib.stored .u8 true (be32 COOKIE ++ be32 16) = .ok (.error .UsizeTypeTooSmall) ∧
    deserialize Fp.ideal Zlib.stored .u8 true (be32 COOKIE ++ be32 16) = .ok (.error .IoError) := by
  refine ⟨by decide, ?_, by decide +kernel, by decide +kernel⟩
  unfold Format.checklist Format.Passes
  simp only [List.take_succ_cons, List.take_zero, List.forall_mem_cons]
  rintro ⟨-, ⟨h, -⟩, -⟩
  revert h
  decide

open Classical in
/-- C76 (9): if they hold, it answers `UsizeTypeTooSmall` if the length announced is not a `usize`, `InvalidParameters` if the
number of slots is not, panics if the memory for the slots or the payload cannot be had, and answers `UsizeTypeTooSmall` if
the payload is there and begins with numbers that can be stored and mean more counts than `usize::MAX`. Otherwise it answers
as on a 64-bit target. -/
theorem C76_deserialize_exact (t : Target) {z : Zlib} {checks : Bool} {m : List UInt8}
    (hc : m.take 4 ≠ Format.bigEndian 4 0x1c849314)
    (hp : Format.Passes m.length ((Format.checklist (Settings fp) m).take 5)) {h0 : Hist T}
    (e0 : Hist.newWithBounds fp T (Format.field 16 8 m) (Format.field 24 8 m) (Format.field 12 4 m) = .ok (.ok h0)) :
    deserializeOn t fp z T checks m =
      if t.usizeMax < Format.field 4 4 m then .ok (.error .UsizeTypeTooSmall)
      else if t.usizeMax < h0.distinctValues then .ok (.error .InvalidParameters)
      else if t.allocates T.bytes h0.distinctValues = false then .error .capacity
      else if Format.field 4 4 m ≠ 0 ∧ t.allocates 1 (Format.field 4 4 m) = false then .error .capacity
      else if 40 + Format.field 4 4 m ≤ m.length ∧
          Format.Overruns t.usizeMax T.max h0.distinctValues ((m.drop 40).take (Format.field 4 4 m)) then
        .ok (.error .UsizeTypeTooSmall)
      else deserialize fp z T checks m := by
  rw [deserializeOn_afterCookie hc, deserialize_afterCookie hc]
  exact afterCookieOn_passed t hp e0

/-- numbers 1, -16, and 512, which is too large for a counter of 8 bits: with pointers of 4 bits the second one is refused,
with pointers of 64 bits the third -/
example : (demoBytes [2, 31, 128, 8]).take 4 ≠ Format.bigEndian 4 0x1c849314 ∧
    Format.Passes (demoBytes [2, 31, 128, 8]).length
      ((Format.checklist (Settings Fp.ideal) (demoBytes [2, 31, 128, 8])).take 5) ∧
    Format.Overruns (Target.generous 4).usizeMax CounterTy.u8.max 5 [2, 31, 128, 8] ∧
    deserializeOn (.generous 4) Fp.ideal Zlib.stored .u8 true (demoBytes [2, 31, 128, 8]) =
      .ok (.error .UsizeTypeTooSmall) ∧
    deserialize Fp.ideal Zlib.stored .u8 true (demoBytes [2, 31, 128, 8]) = .ok (.error .UnsuitableCounterType) := by
  refine ⟨by decide, ?_, ⟨[2, 31], [128, 8], [1, -16], rfl, .cons (u := 2) rfl (.cons (u := 31) rfl .nil), ⟨by decide, by decide, ?_⟩,
    by decide⟩, by decide +kernel, by decide +kernel⟩
  · unfold Format.checklist Format.Passes
    simp only [List.take_succ_cons, List.take_zero, List.forall_mem_cons]
    exact ⟨⟨by decide, by decide⟩, ⟨by decide, by decide⟩, ⟨by decide, by decide⟩, ⟨by decide, by decide⟩,
      ⟨by decide, by unfold Settings; decide +kernel⟩, by simp⟩
  · intro i hi
    match i, hi with
    | k + 5, _ =>
      have : Format.expand [1, -16] = 1 :: List.replicate 16 0 := rfl
      rw [this, show k + 5 = k + 4 + 1 by omega, List.getD_cons_succ]
      simp only [List.getD, List.getElem?_replicate]
      split <;> rfl

/-- C76 (10): a compressed message: `UsizeTypeTooSmall` if its length is not a `usize`; otherwise the target answers as it
answers to what the message inflates to (`InvalidCookie` if that is again a compressed message). -/
theorem C76_deserialize_compressed (t : Target) {z : Zlib} {checks : Bool} {body : List UInt8} {n : Nat} (hn : n < 2 ^ 32) :
    (t.usizeMax < n → deserializeOn t fp z T checks (Format.bigEndian 4 0x1c849314 ++ Format.bigEndian 4 n ++ body) =
      .ok (.error .UsizeTypeTooSmall)) ∧
    (n ≤ t.usizeMax → (z.inflate (body.take n)).take 4 = Format.bigEndian 4 0x1c849314 →
      deserializeOn t fp z T checks (Format.bigEndian 4 0x1c849314 ++ Format.bigEndian 4 n ++ body) =
        .ok (.error .InvalidCookie)) ∧
    (n ≤ t.usizeMax → (z.inflate (body.take n)).take 4 ≠ Format.bigEndian 4 0x1c849314 →
      (deserializeOn t fp z T checks (Format.bigEndian 4 0x1c849314 ++ Format.bigEndian 4 n ++ body)).map
          (fun r => r.map Prod.fst) =
        (deserializeOn t fp z T checks (z.inflate (body.take n))).map fun r => r.map Prod.fst) := by
  rw [deserializeOn_inflated hn]
  refine ⟨fun h => if_pos h, fun h hc => ?_, fun h hc => ?_⟩
  · rw [if_neg (by omega)]
    unfold afterCookieOn
    generalize z.inflate (body.take n) = i at hc
    have : i = be32 COMPRESSED_COOKIE ++ i.drop 4 := by
      conv_lhs => rw [← List.take_append_drop 4 i, hc]
      rw [bigEndian_eq]; rfl
    rw [this, be32, readBE_be 4 _ _ (by decide)]
    simp only
    rw [if_pos (by decide)]
    rfl
  · rw [if_neg (by omega), deserializeOn_afterCookie hc]
    cases afterCookieOn t fp T checks (z.inflate (body.take n)) with
    | error p => rfl
    | ok x =>
      cases x with
      | error e => rfl
      | ok x => rfl

/-- the message of `C79_refuted`, compressed (stored), on 32 bits -/
example : Zlib.stored.inflate ((demoBytes [2, 0xFF, 0xFF, 0xFF, 0xFF, 0x1F]).take 46) =
      demoBytes [2, 0xFF, 0xFF, 0xFF, 0xFF, 0x1F] ∧ 46 ≤ (Target.generous 32).usizeMax ∧
    deserializeOn (.generous 32) Fp.ideal Zlib.stored .u8 true (Format.bigEndian 4 0x1c849314 ++ Format.bigEndian 4 46 ++
      demoBytes [2, 0xFF, 0xFF, 0xFF, 0xFF, 0x1F]) = .ok (.error .UsizeTypeTooSmall) := by
  decide +kernel

open Classical in
/-- C79: on targets with pointers of 32 bits or more and 256 MiB to spare, exactly these messages are treated otherwise than
on a 64-bit target: if the first five checks hold and the memory for the payload announced cannot be had, a panic; and if it
can, the payload is there, and begins with numbers that can be stored and mean more counts than `usize::MAX`,
`UsizeTypeTooSmall`. (Compressed messages: `C76_deserialize_compressed`.) -/
theorem C79_exact {t : Target} (w : t.Wide) {z : Zlib} {checks : Bool} {m : List UInt8}
    (hc : m.take 4 ≠ Format.bigEndian 4 0x1c849314) :
    (¬ Format.Passes m.length ((Format.checklist (Settings fp) m).take 5) →
      deserializeOn t fp z T checks m = deserialize fp z T checks m) ∧
    (Format.Passes m.length ((Format.checklist (Settings fp) m).take 5) → ∃ h0 : Hist T,
      Hist.newWithBounds fp T (Format.field 16 8 m) (Format.field 24 8 m) (Format.field 12 4 m) = .ok (.ok h0) ∧
      deserializeOn t fp z T checks m =
        if Format.field 4 4 m ≠ 0 ∧ t.allocates 1 (Format.field 4 4 m) = false then .error .capacity
        else if 40 + Format.field 4 4 m ≤ m.length ∧
            Format.Overruns t.usizeMax T.max h0.distinctValues ((m.drop 40).take (Format.field 4 4 m)) then
          .ok (.error .UsizeTypeTooSmall)
        else deserialize fp z T checks m) := by
  have hu := w.usize
  have hn := field_lt 4 4 m
  norm_num at hu hn
  constructor
  · intro hf
    rw [C76_deserialize_header t hc hf, if_neg (by omega)]
  · intro hp
    have c5 : Settings fp (Format.field 16 8 m) (Format.field 24 8 m) (Format.field 12 4 m) :=
      (hp ⟨40, Settings fp (Format.field 16 8 m) (Format.field 24 8 m) (Format.field 12 4 m), .InvalidParameters⟩
        (by simp [Format.checklist])).2
    obtain ⟨h0, e0⟩ := constructor_ok (T := T) (field_high m) c5
    have W := (newWithBounds_wf (field_high m) e0).1
    have h1 : h0.distinctValues ≤ t.usizeMax := W.len_wide w
    have h2 : t.allocates T.bytes h0.distinctValues = true := W.alloc_wide w
    refine ⟨h0, e0, ?_⟩
    rw [C76_deserialize_exact t hc hp e0, if_neg (by omega), if_neg (by omega), if_neg (by simp [h2])]

end Hdr
