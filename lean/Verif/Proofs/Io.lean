import Verif.Spec.Io
import Verif.Proofs.Layout

/-! # Reading and writing through `Read` and `Write` -/

namespace Hdr
namespace Io

variable {T : CounterTy}

/-! ## Reading -/

section Read
variable {src : Source} {D : src.State → Nat → List UInt8 → Prop}

theorem Ev.pure {α : Type} {m : Nat → M α} {x : M α} (h : ∀ fuel, m fuel = x) : Ev m x := ⟨0, fun f _ => h f⟩

theorem Ev.bind {α β : Type} {m : Nat → M α} {a : α} {f : Nat → α → M β} {y : M β} (h : Ev m (.ok a))
    (h2 : Ev (fun n => f n a) y) : Ev (fun n => m n >>= f n) y := by
  obtain ⟨F, h⟩ := h
  obtain ⟨G, h2⟩ := h2
  refine ⟨max F G, fun n hn => ?_⟩
  show m n >>= f n = y
  rw [h n (by omega)]
  exact h2 n (by omega)

theorem readExact_spec (L : src.Delivers D) : ∀ (w k : Nat) (s : src.State) (done buf bs : List UInt8),
    k + buf.length ≤ w → D s k bs →
    (buf.length ≤ bs.length → ∃ s' k', D s' k' (bs.drop buf.length) ∧
      Ev (fun fuel => readExact src fuel s done buf) (.ok (true, done ++ bs.take buf.length, s'))) ∧
    (bs.length < buf.length → ∃ b s', b.length = done.length + buf.length ∧
      Ev (fun fuel => readExact src fuel s done buf) (.ok (false, b, s'))) := by
  intro w
  induction w with
  | zero =>
    intro k s done buf bs hw hD
    have : buf = [] := List.length_eq_zero_iff.mp (by omega)
    subst this
    refine ⟨fun _ => ⟨s, k, by simpa using hD, 1, ?_⟩, fun h => absurd h (by simp)⟩
    intro fuel hf
    obtain ⟨f, rfl⟩ : ∃ f, fuel = f + 1 := ⟨fuel - 1, by omega⟩
    simp [readExact]
  | succ w ih =>
    intro k s done buf bs hw hD
    by_cases hb : buf = []
    · subst hb
      refine ⟨fun _ => ⟨s, k, by simpa using hD, 1, ?_⟩, fun h => absurd h (by simp)⟩
      intro fuel hf
      obtain ⟨f, rfl⟩ : ∃ f, fuel = f + 1 := ⟨fuel - 1, by omega⟩
      simp [readExact]
    have hbl : 0 < buf.length := List.length_pos_iff.mpr hb
    have step : ∀ fuel, readExact src (fuel + 1) s done buf =
        match src.read s buf with
        | (.ok 0, buf, s) => .ok (false, done ++ buf, s)
        | (.ok n, buf, s) =>
          if n ≤ buf.length then readExact src fuel s (done ++ buf.take n) (buf.drop n) else .error .index
        | (.interrupted, buf, s) => readExact src fuel s done buf
        | (.failed, buf, s) => .ok (false, done ++ buf, s) := by
      intro fuel; rw [readExact, if_neg hb]; rfl
    have hlen := L.len (buf := buf) hD
    rcases hr : src.read s buf with ⟨r, b, s'⟩
    rw [hr] at hlen step
    dsimp only at hlen
    have lift : ∀ {x : M (Bool × List UInt8 × src.State)} {m : Nat → M (Bool × List UInt8 × src.State)},
        (∀ fuel, readExact src (fuel + 1) s done buf = m fuel) → Ev m x →
        Ev (fun fuel => readExact src fuel s done buf) x := by
      rintro x m e ⟨F, hF⟩
      refine ⟨F + 1, fun fuel hf => ?_⟩
      obtain ⟨f, rfl⟩ : ∃ f, fuel = f + 1 := ⟨fuel - 1, by omega⟩
      show readExact src (f + 1) s done buf = x
      rw [e]; exact hF f (by omega)
    cases r with
    | ok n =>
      obtain ⟨h1, h2, h3, h4, h5⟩ := L.ok hD hb hr
      cases n with
      | zero =>
        have hbs := h4 rfl
        subst hbs
        refine ⟨fun h => absurd h (by simp; exact hb), fun _ => ⟨done ++ b, s', by simp [hlen], lift step (.pure fun _ => rfl)⟩⟩
      | succ n =>
        have step' : ∀ fuel, readExact src (fuel + 1) s done buf =
            readExact src fuel s' (done ++ b.take (n + 1)) (b.drop (n + 1)) := by
          intro fuel
          rw [step]
          show (if n + 1 ≤ b.length then _ else _) = _
          rw [if_pos (by omega)]
        have := ih k s' (done ++ b.take (n + 1)) (b.drop (n + 1)) (bs.drop (n + 1))
          (by rw [List.length_drop]; omega) h5
        rw [List.length_drop, List.length_drop, hlen] at this
        constructor
        · intro hle
          obtain ⟨s2, k2, hD2, he⟩ := this.1 (by omega)
          refine ⟨s2, k2, ?_, ?_⟩
          · rw [List.drop_drop, show n + 1 + (buf.length - (n + 1)) = buf.length by omega] at hD2
            exact hD2
          · refine lift step' ?_
            rw [h3, List.append_assoc, ← List.take_add, show n + 1 + (buf.length - (n + 1)) = buf.length by omega] at he
            rw [h3]
            exact he
        · intro hlt
          obtain ⟨c, s2, hc, he⟩ := this.2 (by omega)
          refine ⟨c, s2, ?_, lift step' he⟩
          rw [hc, List.length_append, List.length_take]; omega
    | interrupted =>
      obtain ⟨k', hk, hD'⟩ := L.interrupted hD hb hr
      have := ih k' s' done b bs (by omega) hD'
      rw [hlen] at this
      exact ⟨fun h => (let ⟨a, c, d, e⟩ := this.1 h; ⟨a, c, d, lift step e⟩),
        fun h => (let ⟨a, c, d, e⟩ := this.2 h; ⟨a, c, d, lift step e⟩)⟩
    | failed =>
      have hbs := L.failed hD hb hr
      subst hbs
      exact ⟨fun h => absurd h (by simp; exact hb), fun _ => ⟨done ++ b, s', by simp [hlen], lift step (.pure fun _ => rfl)⟩⟩

theorem readBE_some (L : src.Delivers D) {s : src.State} {k n x : Nat} {bs rest : List UInt8} (hD : D s k bs)
    (h : V2.readBE n bs = some (x, rest)) :
    ∃ s' k', D s' k' rest ∧ Ev (fun fuel => readBE src fuel n s) (.ok (some x, s')) := by
  unfold V2.readBE V2.readN at h
  split at h
  · rename_i hn
    cases h
    obtain ⟨s', k', hD', he⟩ := (readExact_spec L _ k s [] (List.replicate n 0) bs le_rfl hD).1 (by simpa using hn)
    rw [List.length_replicate] at hD' he
    refine ⟨s', k', hD', ?_⟩
    exact he.bind (f := fun _ p => Pure.pure (if p.1 then some (V2.beVal p.2.1) else none, p.2.2)) (.pure fun _ => by simp; rfl)
  · cases h

theorem readBE_none (L : src.Delivers D) {s : src.State} {k n : Nat} {bs : List UInt8} (hD : D s k bs)
    (h : V2.readBE n bs = none) :
    ∃ s', Ev (fun fuel => readBE src fuel n s) (.ok (none, s')) := by
  unfold V2.readBE V2.readN at h
  split at h
  · cases h
  · rename_i hn
    obtain ⟨b, s', -, he⟩ := (readExact_spec L _ k s [] (List.replicate n 0) bs le_rfl hD).2 (by simpa using hn)
    refine ⟨s', ?_⟩
    exact he.bind (f := fun _ p => Pure.pure (if p.1 then some (V2.beVal p.2.1) else none, p.2.2)) (.pure fun _ => by simp; rfl)

/-- `m` on the reader does what a parser gives on the bytes -/
structure Sim (D : src.State → Nat → List UInt8 → Prop) (m : Nat → M (Except V2.DeserializeError V2.Header × src.State))
    (p : Except V2.DeserializeError V2.Header) : Prop where
  error : ∀ e, p = .error e → ∃ s', Ev m (.ok (.error e, s'))
  ok : ∀ hd, p = .ok hd → ∃ s' k', D s' k' hd.rest ∧ Ev m (.ok (.ok { hd with rest := [] }, s'))

theorem Sim.fail {s : src.State} {e : V2.DeserializeError} : Sim D (fun _ => .ok (.error e, s)) (.error e) :=
  ⟨fun e' h => by cases h; exact ⟨s, .pure fun _ => rfl⟩, fun hd h => by cases h⟩

theorem Sim.field (L : src.Delivers D) {s : src.State} {k n : Nat} {bs : List UInt8} (hD : D s k bs)
    {f : Nat → Nat → src.State → M (Except V2.DeserializeError V2.Header × src.State)}
    {q : Nat → List UInt8 → Except V2.DeserializeError V2.Header}
    (h : ∀ x r s' k', D s' k' r → Sim D (fun fuel => f fuel x s') (q x r)) :
    Sim D (fun fuel => readBE src fuel n s >>= fun p =>
      match p with
      | (none, s) => Pure.pure (.error .IoError, s)
      | (some x, s) => f fuel x s)
      (match V2.readBE n bs with | none => .error .IoError | some (x, r) => q x r) := by
  cases hb : V2.readBE n bs with
  | none =>
    obtain ⟨s', he⟩ := readBE_none L hD hb
    refine ⟨fun e h => ?_, fun hd h => by cases h⟩
    cases h
    exact ⟨s', he.bind (.pure fun _ => rfl)⟩
  | some p =>
    obtain ⟨x, r⟩ := p
    obtain ⟨s', k', hD', he⟩ := readBE_some L hD hb
    have := h x r s' k' hD'
    refine ⟨fun e h => ?_, fun hd h => ?_⟩
    · obtain ⟨s2, he2⟩ := this.error e h
      exact ⟨s2, he.bind he2⟩
    · obtain ⟨s2, k2, hD2, he2⟩ := this.ok hd h
      exact ⟨s2, k2, hD2, he.bind he2⟩

theorem readHeader_sim (L : src.Delivers D) {s : src.State} {k : Nat} {bs : List UInt8} (hD : D s k bs) :
    Sim D (fun fuel => readHeader src fuel s) (V2.readHeader bs) := by
  refine Sim.field L hD fun x1 r1 s1 k1 hD => ?_
  refine Sim.field L hD fun x2 r2 s2 k2 hD => ?_
  by_cases c : x2 ≠ 0
  · simp only [if_pos c]; exact Sim.fail
  simp only [if_neg c]
  refine Sim.field L hD fun x3 r3 s3 k3 hD => ?_
  by_cases c : 255 < x3
  · simp only [if_pos c]; exact Sim.fail
  simp only [if_neg c]
  refine Sim.field L hD fun x4 r4 s4 k4 hD => ?_
  refine Sim.field L hD fun x5 r5 s5 k5 hD => ?_
  refine Sim.field L hD fun x6 r6 s6 k6 hD => ?_
  by_cases c : x6 ≠ V2.ONE_BITS
  · simp only [if_pos c]; exact Sim.fail
  simp only [if_neg c]
  exact ⟨fun e h => (by cases h), fun hd h => (by cases h; exact ⟨s6, k6, hD, .pure fun _ => rfl⟩)⟩

/-- `m` on the reader and with some payload buffer gives what `p` gives, and leaves a reader that delivers the rest -/
def Sim2 {α : Type} (D : src.State → Nat → List UInt8 → Prop) (m : Nat → M (Except V2.DeserializeError α × After src))
    (p : M (Except V2.DeserializeError (α × List UInt8))) : Prop :=
  ∃ a, Ev m (p.map fun r => (r.map Prod.fst, a)) ∧ ∀ x rest, p = .ok (.ok (x, rest)) → ∃ k, D a.reader k rest

theorem length_growBuf (buf : List UInt8) (n : Nat) : n ≤ (growBuf buf n).length := by
  unfold growBuf
  split
  · simp; omega
  · omega

theorem deserV2_sim {fp : Fp} (T : CounterTy) (checks : Bool) (L : src.Delivers D) {s : src.State} {k : Nat} {bs : List UInt8} (hD : D s k bs)
    (pbuf : List UInt8) :
    Sim2 D (fun fuel => deserV2 fp T checks src fuel s pbuf) (V2.deserV2 fp T checks bs) := by
  have hs := readHeader_sim L hD
  unfold V2.deserV2
  cases hh : V2.readHeader bs with
  | error e =>
    obtain ⟨s', he⟩ := hs.error e hh
    exact ⟨⟨s', pbuf⟩, he.bind (.pure fun _ => rfl), fun x rest h => by cases h⟩
  | ok hd =>
    obtain ⟨s', k', hD', he⟩ := hs.ok hd hh
    cases hn : Hist.newWithBounds fp T hd.low hd.high hd.digits with
    | error e => 
      refine ⟨⟨s', pbuf⟩, he.bind (.pure fun _ => ?_), fun x rest h => by dsimp only at h; rw [hn] at h; cases h⟩
      dsimp only
      rw [hn]; rfl
    | ok r =>
      cases r with
      | error e =>
        refine ⟨⟨s', pbuf⟩, he.bind (.pure fun _ => ?_), fun x rest h => by dsimp only at h; rw [hn] at h; cases h⟩
        dsimp only
        rw [hn]; rfl
      | ok h =>
        have hg := length_growBuf pbuf hd.payloadLen
        have hlen : ((growBuf pbuf hd.payloadLen).take hd.payloadLen).length = hd.payloadLen := by
          rw [List.length_take]; omega
        have hx := readExact_spec L _ k' s' [] ((growBuf pbuf hd.payloadLen).take hd.payloadLen) hd.rest le_rfl hD'
        rw [hlen] at hx
        dsimp only
        rw [hn, M.ok_bind]
        dsimp only
        unfold V2.readN
        by_cases hle : hd.payloadLen ≤ hd.rest.length
        · rw [if_pos hle]
          obtain ⟨s2, k2, hD2, he2⟩ := hx.1 hle
          rw [List.nil_append] at he2
          dsimp only
          set pb := hd.rest.take hd.payloadLen ++ (growBuf pbuf hd.payloadLen).drop hd.payloadLen with hpb
          have hpt : pb.take hd.payloadLen = hd.rest.take hd.payloadLen := by
            rw [hpb, List.take_append_of_le_length (by rw [List.length_take]; omega), List.take_take, Nat.min_self]
          refine ⟨⟨s2, pb⟩, he.bind ?_, ?_⟩
          · dsimp only
            rw [hn]
            refine Ev.bind (m := fun _ => (Except.ok (Except.ok h) : M (Except CreationError (Hist T)))) (.pure fun _ => rfl) ?_
            refine he2.bind ?_
            dsimp only
            rw [← hpb, if_pos rfl, hpt]
            cases hq : V2.decodePayload checks h (hd.rest.take hd.payloadLen) with
            | error e => exact .pure fun _ => rfl
            | ok r =>
              cases r with
              | error e => exact .pure fun _ => rfl
              | ok r => exact .pure fun _ => rfl
          · intro x rest hxr
            cases hq : V2.decodePayload checks h (hd.rest.take hd.payloadLen) with
            | error e => rw [hq] at hxr; cases hxr
            | ok r =>
              rw [hq] at hxr
              cases r with
              | error e => cases hxr
              | ok r => cases hxr; exact ⟨k2, hD2⟩
        · rw [if_neg hle]
          obtain ⟨b, s2, -, he2⟩ := hx.2 (by omega)
          refine ⟨⟨s2, b ++ (growBuf pbuf hd.payloadLen).drop hd.payloadLen⟩, he.bind ?_, fun x rest h => by cases h⟩
          dsimp only
          rw [hn]
          refine Ev.bind (m := fun _ => (Except.ok (Except.ok h) : M (Except CreationError (Hist T)))) (.pure fun _ => rfl) ?_
          exact he2.bind (.pure fun _ => rfl)

/-- what `take` promises -/
def TakeD (D : src.State → Nat → List UInt8 → Prop) (s : src.State × Nat) (k : Nat) (bs : List UInt8) : Prop :=
  ∃ all, D s.1 k all ∧ bs = all.take s.2

theorem take_delivers (L : src.Delivers D) : (takeSource src).Delivers (TakeD D) := by
  have hz : ∀ (s : src.State) (buf : List UInt8), (takeSource src).read (s, 0) buf = (.ok 0, buf, (s, 0)) := fun s buf => rfl
  have hs : ∀ (s : src.State) (l : Nat) (buf : List UInt8), (takeSource src).read (s, l + 1) buf =
      ((src.read s (buf.take (l + 1))).1, (src.read s (buf.take (l + 1))).2.1 ++ buf.drop (l + 1),
        ((src.read s (buf.take (l + 1))).2.2, match (src.read s (buf.take (l + 1))).1 with | .ok n => l + 1 - n | _ => l + 1)) :=
    fun s l buf => rfl
  have hne : ∀ {buf : List UInt8} {l : Nat}, buf ≠ [] → buf.take (l + 1) ≠ [] := by
    intro buf l h; cases buf with
    | nil => exact absurd rfl h
    | cons a b => simp
  constructor
  · rintro ⟨s, l⟩ k bs buf ⟨all, hD, rfl⟩
    cases l with
    | zero => rw [hz]
    | succ l =>
      rw [hs]
      have := L.len (buf := buf.take (l + 1)) hD
      simp only [List.length_append, this, List.length_take, List.length_drop]; omega
  · rintro ⟨s, l⟩ k bs buf n b ⟨s', l'⟩ ⟨all, hD, rfl⟩ hb hr
    cases l with
    | zero =>
      rw [hz] at hr
      cases hr
      exact ⟨by omega, by omega, by simp, fun _ => by simp, ⟨all, hD, by simp⟩⟩
    | succ l =>
      rw [hs] at hr
      have hlen := L.len (buf := buf.take (l + 1)) hD
      rcases hi : src.read s (buf.take (l + 1)) with ⟨r, c, t⟩
      rw [hi] at hr hlen
      dsimp only at hlen
      cases hr
      obtain ⟨h1, h2, h3, h4, h5⟩ := L.ok hD (hne hb) hi
      rw [List.length_take] at h1 hlen
      dsimp only
      refine ⟨by omega, by rw [List.length_take]; omega, ?_, fun h => by rw [h4 h]; simp, ⟨_, h5, ?_⟩⟩
      · rw [List.take_append_of_le_length (by omega), h3, List.take_take, show min n (l + 1) = n by omega]
      · dsimp only
        rw [List.drop_take]
  · rintro ⟨s, l⟩ k bs buf b ⟨s', l'⟩ ⟨all, hD, rfl⟩ hb hr
    cases l with
    | zero => rw [hz] at hr; cases hr
    | succ l =>
      rw [hs] at hr
      rcases hi : src.read s (buf.take (l + 1)) with ⟨r, c, t⟩
      rw [hi] at hr
      cases hr
      obtain ⟨k', hk, hD'⟩ := L.interrupted hD (hne hb) hi
      exact ⟨k', hk, all, hD', rfl⟩
  · rintro ⟨s, l⟩ k bs buf b ⟨s', l'⟩ ⟨all, hD, rfl⟩ hb hr
    cases l with
    | zero => rw [hz] at hr; cases hr
    | succ l =>
      rw [hs] at hr
      rcases hi : src.read s (buf.take (l + 1)) with ⟨r, c, t⟩
      rw [hi] at hr
      cases hr
      rw [L.failed hD (hne hb) hi]; rfl

/-- `m` on the reader gives what `p` gives -/
def Sim1 {α : Type} (m : Nat → M (Except V2.DeserializeError α × After src))
    (p : M (Except V2.DeserializeError (α × List UInt8))) : Prop :=
  ∃ a, Ev m (p.map fun r => (r.map Prod.fst, a))

theorem deserV2Compressed_sim {fp : Fp} (T : CounterTy) (checks : Bool) {z : V2.Zlib} {dec : Decoder} (hdec : dec.Inflates z)
    (L : src.Delivers D) {s : src.State} {k : Nat} {bs : List UInt8} (hD : D s k bs) (pbuf : List UInt8) :
    Sim1 (fun fuel => deserV2Compressed fp dec T checks src fuel s pbuf) (V2.deserV2Compressed fp z T checks bs) := by
  unfold V2.deserV2Compressed
  cases hb : V2.readBE 4 bs with
  | none =>
    obtain ⟨s', he⟩ := readBE_none L hD hb
    exact ⟨⟨s', pbuf⟩, he.bind (.pure fun _ => rfl)⟩
  | some p =>
    obtain ⟨n, r⟩ := p
    obtain ⟨s1, k1, hD1, he⟩ := readBE_some L hD hb
    obtain ⟨D2, L2, hnew⟩ := hdec (take_delivers L)
    obtain ⟨k2, hD2⟩ := hnew (takeNew s1 n) k1 (r.take n) ⟨r, hD1, rfl⟩
    dsimp only
    cases hb2 : V2.readBE 4 (z.inflate (r.take n)) with
    | none =>
      obtain ⟨s', he2⟩ := readBE_none L2 hD2 hb2
      refine ⟨⟨takeInner (dec.inner s'), pbuf⟩, he.bind ?_⟩
      exact he2.bind (.pure fun _ => rfl)
    | some p =>
      obtain ⟨cookie, inner⟩ := p
      obtain ⟨s3, k3, hD3, he3⟩ := readBE_some L2 hD2 hb2
      dsimp only
      by_cases hc : cookie ≠ V2.COOKIE
      · rw [if_pos hc]
        refine ⟨⟨takeInner (dec.inner s3), pbuf⟩, he.bind ?_⟩
        refine he3.bind ?_
        exact .pure fun _ => (if_pos hc).trans rfl
      · rw [if_neg hc]
        obtain ⟨a, ha, -⟩ := deserV2_sim (fp := fp) T checks L2 hD3 pbuf
        refine ⟨⟨takeInner (dec.inner a.reader), a.payloadBuf⟩, he.bind ?_⟩
        refine he3.bind ?_
        obtain ⟨F, ha⟩ := ha
        refine ⟨F, fun fuel hf => (if_neg hc).trans ?_⟩
        dsimp only at ha ⊢
        rw [ha fuel hf]
        cases V2.deserV2 fp T checks inner with
        | error e => rfl
        | ok r => cases r <;> rfl

theorem deserialize_sim {fp : Fp} (T : CounterTy) (checks : Bool) {z : V2.Zlib} {dec : Decoder} (hdec : dec.Inflates z)
    (L : src.Delivers D) {s : src.State} {k : Nat} {bs : List UInt8} (hD : D s k bs) (pbuf : List UInt8) :
    ∃ a, Ev (fun fuel => deserialize fp dec T checks src fuel s pbuf)
        ((V2.deserialize fp z T checks bs).map fun r => (r.map Prod.fst, a)) ∧
      (∀ x rest, V2.deserialize fp z T checks bs = .ok (.ok (x, rest)) → V2.beVal (bs.take 4) = V2.COOKIE →
        ∃ k, D a.reader k rest) := by
  unfold V2.deserialize
  cases hb : V2.readBE 4 bs with
  | none =>
    obtain ⟨s', he⟩ := readBE_none L hD hb
    exact ⟨⟨s', pbuf⟩, he.bind (.pure fun _ => rfl), fun x rest h => by cases h⟩
  | some p =>
    obtain ⟨n, r⟩ := p
    obtain ⟨s1, k1, hD1, he⟩ := readBE_some L hD hb
    have hn : n = V2.beVal (bs.take 4) := by
      unfold V2.readBE V2.readN at hb
      split at hb
      · cases hb; rfl
      · cases hb
    dsimp only
    by_cases c1 : n = V2.COOKIE
    · rw [if_pos c1]
      obtain ⟨a, ha, hx⟩ := deserV2_sim (fp := fp) T checks L hD1 pbuf
      refine ⟨a, he.bind ?_, fun x rest h _ => hx x rest h⟩
      exact ⟨ha.choose, fun n hn => (if_pos c1).trans (ha.choose_spec n hn)⟩
    · rw [if_neg c1]
      by_cases c2 : n = V2.COMPRESSED_COOKIE
      · rw [if_pos c2]
        obtain ⟨a, ha⟩ := deserV2Compressed_sim (fp := fp) T checks hdec L hD1 pbuf
        refine ⟨a, he.bind ?_, fun x rest h c => absurd (hn.trans c) c1⟩
        exact ⟨ha.choose, fun n hn => (if_neg c1).trans ((if_pos c2).trans (ha.choose_spec n hn))⟩
      · rw [if_neg c2]
        refine ⟨⟨s1, pbuf⟩, he.bind ?_, fun x rest h c => absurd (hn.trans c) c1⟩
        exact .pure fun _ => (if_neg c1).trans ((if_neg c2).trans rfl)

end Read

/-! ## Writing -/

section Write
variable {sink : Sink} {received : sink.State → List UInt8} {left : sink.State → Nat}

theorem writeAll_spec (L : sink.Takes received left) : ∀ (w : Nat) (s : sink.State) (buf : List UInt8),
    left s + buf.length ≤ w →
    ∃ good s', Ev (fun fuel => writeAll sink fuel s buf) (.ok (good, s')) ∧ Wrote received s s' good buf := by
  intro w
  induction w with
  | zero =>
    intro s buf hw
    have : buf = [] := List.length_eq_zero_iff.mp (by omega)
    subst this
    refine ⟨true, s, ⟨1, fun fuel hf => ?_⟩, by simp [Wrote]⟩
    obtain ⟨f, rfl⟩ : ∃ f, fuel = f + 1 := ⟨fuel - 1, by omega⟩
    simp [writeAll]
  | succ w ih =>
    intro s buf hw
    by_cases hb : buf = []
    · subst hb
      refine ⟨true, s, ⟨1, fun fuel hf => ?_⟩, by simp [Wrote]⟩
      obtain ⟨f, rfl⟩ : ∃ f, fuel = f + 1 := ⟨fuel - 1, by omega⟩
      simp [writeAll]
    have hbl : 0 < buf.length := List.length_pos_iff.mpr hb
    have step : ∀ fuel, writeAll sink (fuel + 1) s buf =
        match sink.write s buf with
        | (.ok 0, s) => .ok (false, s)
        | (.ok n, s) => if n ≤ buf.length then writeAll sink fuel s (buf.drop n) else .error .index
        | (.interrupted, s) => writeAll sink fuel s buf
        | (.failed, s) => .ok (false, s) := by
      intro fuel; rw [writeAll, if_neg hb]; rfl
    rcases hr : sink.write s buf with ⟨r, s'⟩
    rw [hr] at step
    have lift : ∀ {x : M (Bool × sink.State)} {m : Nat → M (Bool × sink.State)},
        (∀ fuel, writeAll sink (fuel + 1) s buf = m fuel) → Ev m x → Ev (fun fuel => writeAll sink fuel s buf) x := by
      rintro x m e ⟨F, hF⟩
      refine ⟨F + 1, fun fuel hf => ?_⟩
      obtain ⟨f, rfl⟩ : ∃ f, fuel = f + 1 := ⟨fuel - 1, by omega⟩
      show writeAll sink (f + 1) s buf = x
      rw [e]; exact hF f (by omega)
    cases r with
    | ok n =>
      obtain ⟨h1, h2, h3⟩ := L.ok hb hr
      cases n with
      | zero =>
        refine ⟨false, s', lift step (.pure fun _ => rfl), [], by simp, fun h => hb h.symm, ?_⟩
        simpa using h2
      | succ n =>
        have step' : ∀ fuel, writeAll sink (fuel + 1) s buf = writeAll sink fuel s' (buf.drop (n + 1)) := by
          intro fuel
          rw [step]
          show (if n + 1 ≤ buf.length then _ else _) = _
          rw [if_pos (by omega)]
        obtain ⟨good, s2, he, hwr⟩ := ih s' (buf.drop (n + 1)) (by rw [List.length_drop]; omega)
        refine ⟨good, s2, lift step' he, ?_⟩
        cases good with
        | true =>
          show received s2 = _
          rw [show received s2 = received s' ++ buf.drop (n + 1) from hwr, h2, List.append_assoc, List.take_append_drop]
        | false =>
          obtain ⟨p, hp, hne, hrec⟩ := hwr
          refine ⟨buf.take (n + 1) ++ p, ?_, ?_, ?_⟩
          · obtain ⟨q, hq⟩ := hp
            exact ⟨q, by rw [List.append_assoc, hq, List.take_append_drop]⟩
          · intro h
            apply hne
            have := congrArg (List.drop (n + 1)) h
            rwa [List.drop_left' (by rw [List.length_take]; omega)] at this
          · rw [hrec, h2, List.append_assoc]
    | interrupted =>
      obtain ⟨h1, h2⟩ := L.interrupted hb hr
      obtain ⟨good, s2, he, hwr⟩ := ih s' buf (by omega)
      refine ⟨good, s2, lift step he, ?_⟩
      unfold Wrote at hwr ⊢
      rwa [h1] at hwr
    | failed =>
      obtain ⟨h1, h2⟩ := L.failed hb hr
      exact ⟨false, s', lift step (.pure fun _ => rfl), [], by simp, fun h => hb h.symm, by simpa using h1⟩

theorem Wrote.append {s s1 s2 : sink.State} {good : Bool} {a b : List UInt8} (h : Wrote received s s1 true a)
    (h2 : Wrote received s1 s2 good b) : Wrote received s s2 good (a ++ b) := by
  have h' : received s1 = received s ++ a := h
  cases good with
  | true =>
    show received s2 = _
    rw [show received s2 = received s1 ++ b from h2, h', List.append_assoc]
  | false =>
    obtain ⟨p, ⟨q, hq⟩, hne, hrec⟩ := h2
    refine ⟨a ++ p, ⟨q, by rw [List.append_assoc, hq]⟩, fun e => hne (List.append_cancel_left e), ?_⟩
    rw [hrec, h', List.append_assoc]

theorem Wrote.cut {s s1 : sink.State} {a : List UInt8} (h : Wrote received s s1 false a) (b : List UInt8) :
    Wrote received s s1 false (a ++ b) := by
  obtain ⟨p, ⟨q, hq⟩, hne, hrec⟩ := h
  refine ⟨p, ⟨q ++ b, by rw [← List.append_assoc, hq]⟩, fun e => ?_, hrec⟩
  have h1 := congrArg List.length e
  have h2 := congrArg List.length hq
  rw [List.length_append] at h1 h2
  have : q = [] := List.length_eq_zero_iff.mp (by omega)
  subst this
  exact hne (by simpa using hq)

theorem writePieces_spec (L : sink.Takes received left) : ∀ (ps : List (List UInt8)) (s : sink.State),
    ∃ good s', Ev (fun fuel => writePieces sink fuel s ps) (.ok (good, s')) ∧ Wrote received s s' good ps.flatten := by
  intro ps
  induction ps with
  | nil => intro s; exact ⟨true, s, .pure fun _ => rfl, by simp [Wrote]⟩
  | cons p ps ih =>
    intro s
    obtain ⟨good, s1, he, hw⟩ := writeAll_spec L _ s p le_rfl
    cases good with
    | false => exact ⟨false, s1, he.bind (.pure fun _ => rfl), hw.cut _⟩
    | true =>
      obtain ⟨g, s2, he2, hw2⟩ := ih s1
      exact ⟨g, s2, he.bind he2, hw.append hw2⟩

end Write

end Io
end Hdr
