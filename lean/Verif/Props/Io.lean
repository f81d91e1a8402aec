import Verif.Proofs.Io
import Verif.Spec.Demo
import Verif.Spec.LogDemo

/-!
# C62, C63: readers and writers of any kind

C62: deserializing from a reader gives what deserializing from its bytes gives. C63: what arrives at a writer.
-/

namespace Hdr
namespace Io

variable {T : CounterTy}

/-! ## C62 -/

/-- C62: whatever the portions in which a reader delivers the bytes `bs`, whether it interrupts, whether end of input or an
error follows, and whatever previous calls left in the buffer of the deserializer: the result (or the panic) is that of
deserializing from the slice `bs`. Moreover, if the format is not compressed, exactly the bytes of the histogram have been
read: the reader goes on to deliver the rest. -/
theorem C62_reader {src : Source} {D : src.State → Nat → List UInt8 → Prop} (L : src.Delivers D) {z : V2.Zlib}
    {dec : Decoder} (hdec : dec.Inflates z) {s : src.State} {k : Nat} {bs : List UInt8} (hD : D s k bs)
    (pbuf : List UInt8) (fp : Fp) (T : CounterTy) (checks : Bool) :
    ∃ a : After src,
      Ev (fun fuel => deserialize fp dec T checks src fuel s pbuf)
        ((V2.deserialize fp z T checks bs).map fun r => (r.map Prod.fst, a)) ∧
      ∀ h rest, V2.deserialize fp z T checks bs = .ok (.ok (h, rest)) → bs.take 4 = [0x1c, 0x84, 0x93, 0x13] →
        ∃ k, D a.reader k rest := by
  obtain ⟨a, h1, h2⟩ := deserialize_sim (fp := fp) T checks hdec L hD pbuf
  refine ⟨a, h1, fun h rest e hc => h2 h rest e ?_⟩
  rw [hc]; decide

/-- what a scripted reader promises -/
def ScriptD (s : List (Option Nat) × List UInt8) (k : Nat) (bs : List UInt8) : Prop :=
  s.2 = bs ∧ s.1.count none ≤ k

/-- scripted readers deliver, whatever the script -/
theorem scripted_delivers : scripted.Delivers ScriptD := by
  constructor
  · rintro ⟨script, bs'⟩ k bs buf ⟨rfl, hk⟩
    cases script with
    | nil =>
      cases bs' with
      | nil => rfl
      | cons b bs =>
        show ((b :: buf.drop 1).take buf.length).length = _
        cases buf <;> simp
    | cons x script =>
      cases x with
      | none => rfl
      | some n =>
        show (bs'.take _ ++ buf.drop _).length = _
        simp only [List.length_append, List.length_take, List.length_drop]; omega
  · rintro ⟨script, bs'⟩ k bs buf n b s' ⟨rfl, hk⟩ hb hr
    have hbl : 0 < buf.length := List.length_pos_iff.mpr hb
    dsimp only
    cases script with
    | nil =>
      cases bs' with
      | nil => cases hr
      | cons x xs =>
        have hr' : (Res.ok (min 1 buf.length), (x :: buf.drop 1).take buf.length,
          ((([] : List (Option Nat)), if buf = [] then x :: xs else xs))) = (Res.ok n, b, s') := hr
        cases hr'
        rw [show min 1 buf.length = 1 by omega, if_neg hb]
        refine ⟨by omega, by simp, ?_, fun h => by omega, rfl, hk⟩
        cases buf with
        | nil => exact absurd rfl hb
        | cons y ys => simp
    | cons x script =>
      cases x with
      | none => cases hr
      | some m =>
        have hr' : (Res.ok (min (min (m + 1) buf.length) bs'.length),
          bs'.take (min (min (m + 1) buf.length) bs'.length) ++ buf.drop (min (min (m + 1) buf.length) bs'.length),
          (script, bs'.drop (min (min (m + 1) buf.length) bs'.length))) = (Res.ok n, b, s') := hr
        cases hr'
        refine ⟨by omega, by omega, ?_, fun h => List.length_eq_zero_iff.mp (by omega), rfl, ?_⟩
        · rw [List.take_append_of_le_length (by rw [List.length_take]; omega), List.take_take, Nat.min_self]
        · simpa using hk
  · rintro ⟨script, bs'⟩ k bs buf b s' ⟨rfl, hk⟩ hb hr
    cases script with
    | nil =>
      cases bs' with
      | nil => cases hr
      | cons x xs => cases hr
    | cons x script =>
      cases x with
      | none =>
        have hr' : (Res.interrupted, buf, (script, bs')) = (Res.interrupted, b, s') := hr
        cases hr'
        refine ⟨script.count none, ?_, rfl, le_rfl⟩
        simp at hk; omega
      | some m => cases hr
  · rintro ⟨script, bs'⟩ k bs buf b s' ⟨rfl, hk⟩ hb hr
    cases script with
    | nil =>
      cases bs' with
      | nil => rfl
      | cons x xs => cases hr
    | cons x script => cases x <;> cases hr

/-- data that is not compressed -/
theorem stored_inflates : storedDecoder.Inflates V2.Zlib.stored := fun {_ D} L => ⟨D, L, fun _ k _ h => ⟨k, h⟩⟩

/-- the bytes of `demo3`, and 2 more -/
def demoWire : List UInt8 :=
  [0x1c, 0x84, 0x93, 0x13, 0, 0, 0, 5, 0, 0, 0, 0, 0, 0, 0, 0, 0, 0, 0, 0, 0, 0, 0, 1, 0, 0, 0, 0, 0, 0, 0, 15,
    0x3F, 0xF0, 0, 0, 0, 0, 0, 0, 2, 3, 6, 144, 3, 7, 8]

/-- the bytes of `demo3` and 2 more in portions of 3, 7, 100, 2, 1, 1 … bytes, with two interruptions, into a deserializer
with a used buffer: `demo3` is read, and the 2 bytes are left -/
example : scripted.Delivers ScriptD ∧ ScriptD ([some 2, none, some 6, some 99, none, some 1], demoWire) 2 demoWire ∧
    (deserialize Fp.ideal storedDecoder .u8 true scripted 100 ([some 2, none, some 6, some 99, none, some 1], demoWire)
      (List.replicate 7 0xEE)).toOption.map (fun r =>
        (r.1.toOption.map fun h => h.counts, (show List (Option Nat) × List UInt8 from r.2.reader), r.2.payloadBuf)) =
      some (some [1, 0, 0, 3, 200], ([], [7, 8]), [2, 3, 6, 144, 3, 0xEE, 0xEE]) :=
  ⟨scripted_delivers, ⟨rfl, by decide⟩, by decide +kernel⟩

/-! ## C63 -/

section
variable {sink : Sink} {received : sink.State → List UInt8} {left : sink.State → Nat}

theorem finish_spec (L : sink.Takes received left) (s : sink.State) {bytes : List UInt8} {n : Nat} :
    ∃ good s', Ev (fun fuel => finish sink fuel s (.ok (bytes, n)))
        (.ok (if good then .ok n else .error .io, s')) ∧ Wrote received s s' good bytes := by
  obtain ⟨good, s', he, hw⟩ := writeAll_spec L _ s bytes le_rfl
  exact ⟨good, s', he.bind (.pure fun _ => rfl), hw⟩

/-- C63 (1): the V2 serializer and any writer, whatever the portions in which it takes the bytes and the interruptions.
`Ok(n)` is returned only if the writer has taken the whole encoding (of `n` bytes); `IoError` only if it has taken a proper
part of it, from the beginning; nothing is written before any other error. -/
theorem C63_serialize (L : sink.Takes received left) (junk : Nat → UInt8) (h : Hist T) (s : sink.State) :
    (∀ bytes n, V2.serialize junk h = .ok (.ok (bytes, n)) →
      ∃ good s', Ev (fun fuel => serialize sink fuel junk h s) (.ok (if good then .ok n else .error .io, s')) ∧
        Wrote received s s' good bytes) ∧
    (∀ e, V2.serialize junk h = .ok (.error e) → Ev (fun fuel => serialize sink fuel junk h s) (.ok (.error (.err e), s))) := by
  constructor
  · intro bytes n e
    unfold serialize
    rw [e]
    exact finish_spec L s
  · intro x e
    unfold serialize
    rw [e]
    exact .pure fun _ => rfl

/-- C63 (2): the same for the V2+DEFLATE serializer. -/
theorem C63_serialize_deflate (L : sink.Takes received left) (z : V2.Zlib) (junk : Nat → UInt8) (h : Hist T) (s : sink.State) :
    (∀ bytes n, V2.serializeDeflate z junk h = .ok (.ok (bytes, n)) →
      ∃ good s', Ev (fun fuel => serializeDeflate z sink fuel junk h s) (.ok (if good then .ok n else .error .io, s')) ∧
        Wrote received s s' good bytes) ∧
    (∀ e, V2.serializeDeflate z junk h = .ok (.error e) →
      Ev (fun fuel => serializeDeflate z sink fuel junk h s) (.ok (.error (.err e), s))) := by
  constructor
  · intro bytes n e
    unfold serializeDeflate
    rw [e]
    exact finish_spec L s
  · intro x e
    unfold serializeDeflate
    rw [e]
    exact .pure fun _ => rfl

variable {ε : Type}

/-- C63 (3): one call of the interval log writer. Either it returns what it returns on an in-memory writer, and the writer
has taken the same bytes; or it returns `IoError`, and the writer has taken a proper part of these bytes, from the
beginning. -/
theorem C63_log_call (L : sink.Takes received left) (f : Log.Fmt) (divisor : F64) (ser : Log.Ser ε) (op : Log.Op)
    {b : List UInt8} {r : Except ε Unit} (h : op.run f divisor ser = .ok (b, r)) (s : sink.State) :
    ∃ r' s', Ev (fun fuel => logOp f divisor ser sink fuel s op) (.ok (r', s')) ∧
      ((r' = .error .io ∧ Wrote received s s' false b) ∨ (r' = r.mapError .err ∧ Wrote received s s' true b)) := by
  cases op with
  | comment text =>
    cases h
    obtain ⟨good, s', he, hw⟩ := writePieces_spec L
      ((Log.splitLines text).map fun l => Log.Str.bytes ('#' :: l ++ ['\n'])) s
    refine ⟨if good then .ok () else .error .io, s', he.bind (.pure fun _ => rfl), ?_⟩
    cases good with
    | true => exact .inr ⟨rfl, hw⟩
    | false => exact .inl ⟨rfl, hw⟩
  | hist h0 start duration tag =>
    rename_i T'
    have h' : Log.writeHistogram f divisor ser h0 start duration tag = .ok (b, r) := h
    unfold Log.writeHistogram at h'
    rw [M.bind_eq_ok] at h'
    obtain ⟨mx, hmx, h'⟩ := h'
    rw [M.bind_eq_ok] at h'
    obtain ⟨x, hx, h'⟩ := h'
    show ∃ r' s', Ev (fun fuel => writeHistogram f divisor ser sink fuel h0 start duration tag s) (.ok (r', s')) ∧ _
    unfold writeHistogram
    rw [hmx]
    simp only [M.ok_bind]
    generalize Log.Str.bytes (Log.tagText tag ++ f.fixed3 (Log.durationAsFpSeconds start) ++ [',']
      ++ f.fixed3 (Log.durationAsFpSeconds duration) ++ [','] ++ f.fixed3 (F64.div (F64.ofNat mx) divisor) ++ [',']) = head
      at h' ⊢
    obtain ⟨good, s1, he, hw⟩ := writeAll_spec L _ s head le_rfl
    cases good with
    | false =>
      refine ⟨_, s1, he.bind (.pure fun _ => rfl), .inl ⟨rfl, ?_⟩⟩
      cases x with
      | error e => cases h'; exact hw
      | ok buf => cases h'; rw [List.append_assoc]; exact hw.cut _
    | true =>
      cases x with
      | error e =>
        cases h'
        refine ⟨.error (.err e), s1, he.bind (.pure fun _ => ?_), .inr ⟨rfl, hw⟩⟩
        dsimp only; rw [hx]; rfl
      | ok buf =>
        cases h'
        obtain ⟨g2, s2, he2, hw2⟩ := writePieces_spec L [Log.Str.bytes (Log.b64Encode buf), [10]] s1
        have hw3 := hw.append hw2
        rw [show [Log.Str.bytes (Log.b64Encode buf), [10]].flatten = Log.Str.bytes (Log.b64Encode buf) ++ [10] by simp,
          ← List.append_assoc] at hw3
        refine ⟨if g2 then .ok () else .error .io, s2, he.bind ?_, ?_⟩
        · dsimp only; rw [hx]
          refine Ev.bind (m := fun _ => (Except.ok (Except.ok buf) : M (Except ε Log.Bytes))) (.pure fun _ => rfl) ?_
          refine he2.bind ?_
          cases g2 <;> exact .pure fun _ => rfl
        · cases g2 with
          | true => exact .inr ⟨rfl, hw3⟩
          | false => exact .inl ⟨rfl, hw3⟩

theorem logOps_spec (L : sink.Takes received left) (f : Log.Fmt) (divisor : F64) (ser : Log.Ser ε) :
    ∀ (ops : List Log.Op) (s : sink.State) {out : List UInt8}, Log.runOps f divisor ser ops = .ok (.ok out) →
    ∃ good s', Ev (fun fuel => logOps f divisor ser sink fuel s ops) (.ok (if good then .ok () else .error .io, s')) ∧
      Wrote received s s' good out := by
  intro ops
  induction ops with
  | nil => intro s out h; cases h; exact ⟨true, s, .pure fun _ => rfl, by simp [Wrote]⟩
  | cons op ops ih =>
    intro s out h
    rw [Log.runOps, M.bind_eq_ok] at h
    obtain ⟨⟨b, r⟩, hop, h⟩ := h
    cases r with
    | error e => cases h
    | ok u =>
      cases u
      dsimp only at h
      rw [M.bind_eq_ok] at h
      obtain ⟨x, hx, h⟩ := h
      cases x with
      | error e => cases h
      | ok bs =>
        cases h
        obtain ⟨r', s1, he, ⟨rfl, hw⟩ | ⟨rfl, hw⟩⟩ := C63_log_call L f divisor ser op hop s
        · exact ⟨false, s1, he.bind (.pure fun _ => rfl), hw.cut _⟩
        · obtain ⟨good, s2, he2, hw2⟩ := ih s1 hx
          exact ⟨good, s2, he.bind he2, hw.append hw2⟩

/-- C63 (4): a whole log. If the log can be written to an in-memory writer as `out`, then any other writer has taken `out`
when all calls have succeeded; and when one has failed, with `IoError`, a proper part of `out`, from the beginning. -/
theorem C63_log (L : sink.Takes received left) (f : Log.Fmt) (b : Log.Builder) (ser : Log.Ser ε) (ops : List Log.Op)
    {out : List UInt8} (h : Log.writeLog f b ser ops = .ok (.ok out)) (s : sink.State) :
    ∃ good s', Ev (fun fuel => writeLog f b ser sink fuel s ops) (.ok (if good then .ok () else .error .io, s')) ∧
      Wrote received s s' good out := by
  unfold Log.writeLog at h
  rw [M.bind_eq_ok] at h
  obtain ⟨x, hx, h⟩ := h
  cases x with
  | error e => cases h
  | ok bs =>
    cases h
    have hb : (beginPieces f b).flatten = b.beginBytes f := by
      unfold beginPieces Log.Builder.beginBytes
      have : ∀ cs : List Log.Str, (cs.flatMap fun c => (Log.splitLines c).map fun l => Log.Str.bytes ('#' :: l ++ ['\n'])).flatten
          = cs.flatMap Log.commentBytes := by
        intro cs
        induction cs with
        | nil => rfl
        | cons c cs ih => rw [List.flatMap_cons, List.flatten_append, ih, List.flatMap_cons]; rfl
      rw [List.flatten_append, this]
      simp
    obtain ⟨good, s1, he, hw⟩ := writePieces_spec L (beginPieces f b) s
    rw [hb] at hw
    cases good with
    | false => exact ⟨false, s1, he.bind (.pure fun _ => rfl), hw.cut _⟩
    | true =>
      obtain ⟨g2, s2, he2, hw2⟩ := logOps_spec L f b.maxValueDivisor ser ops s1 hx
      exact ⟨g2, s2, he.bind he2, hw.append hw2⟩

end

/-- scripted writers take what they are given, whatever the script -/
theorem scriptedSink_takes : scriptedSink.Takes Prod.snd (fun s => s.1.count none) := by
  constructor
  · rintro ⟨script, bs⟩ buf n s' hb hr
    cases script with
    | nil => cases hr
    | cons x script =>
      cases x with
      | none => cases hr
      | some m =>
        have hr' : (Res.ok (min m buf.length), (script, bs ++ buf.take m)) = (Res.ok n, s') := hr
        cases hr'
        refine ⟨by omega, ?_, by simp⟩
        show bs ++ buf.take m = bs ++ buf.take _
        rw [← List.take_eq_take_min]
  · rintro ⟨script, bs⟩ buf s' hb hr
    cases script with
    | nil => cases hr
    | cons x script =>
      cases x with
      | none =>
        have hr' : (Res.interrupted, (script, bs)) = (Res.interrupted, s') := hr
        cases hr'
        exact ⟨rfl, by simp⟩
      | some m => cases hr
  · rintro ⟨script, bs⟩ buf s' hb hr
    cases script with
    | nil =>
      have hr' : (Res.failed, (([] : List (Option Nat)), bs)) = (Res.failed, s') := hr
      cases hr'
      exact ⟨rfl, le_rfl⟩
    | cons x script => cases x <;> cases hr

/-- `demo3` to a writer that takes 30 bytes, interrupts, takes the other 15; and to one that fails after 30 -/
example :
    (serialize scriptedSink 10 (fun _ => 0) demo3 ([some 30, none, some 99], [9])).toOption.map
      (fun r => (r.1.toOption, (show List (Option Nat) × List UInt8 from r.2))) = some (some 45, ([], 9 :: demoWire.take 45)) ∧
    (serialize scriptedSink 10 (fun _ => 0) demo3 ([some 30, none], [9])).toOption.map
      (fun r => (r.1.toOption, (show List (Option Nat) × List UInt8 from r.2))) = some (none, ([], 9 :: demoWire.take 30)) := by
  decide +kernel

end Io
end Hdr
