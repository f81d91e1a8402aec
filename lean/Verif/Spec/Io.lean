import Verif.Model.Io

/-!
# Well-behaved readers and writers

What the documentation of `std::io::Read` and `std::io::Write` promises of them.
-/

namespace Hdr
namespace Io

/-- `D s k bs` can be read as "the reader in state `s` will deliver `bs`, in portions of any size, interrupting at most `k`
times, and then report end of input or an error". A reader delivers if each call of `read` on a buffer that is not empty
keeps this promise. -/
structure Source.Delivers (src : Source) (D : src.State → Nat → List UInt8 → Prop) : Prop where
  /-- the buffer keeps its length -/
  len : ∀ {s k bs buf}, D s k bs → (src.read s buf).2.1.length = buf.length
  /-- `n` bytes are stored in the buffer; none of them only at the end of input -/
  ok : ∀ {s k bs buf n b s'}, D s k bs → buf ≠ [] → src.read s buf = (.ok n, b, s') →
    n ≤ buf.length ∧ n ≤ bs.length ∧ b.take n = bs.take n ∧ (n = 0 → bs = []) ∧ D s' k (bs.drop n)
  interrupted : ∀ {s k bs buf b s'}, D s k bs → buf ≠ [] → src.read s buf = (.interrupted, b, s') → ∃ k' < k, D s' k' bs
  failed : ∀ {s k bs buf b s'}, D s k bs → buf ≠ [] → src.read s buf = (.failed, b, s') → bs = []

/-- the decoder turns a reader that delivers `bs` into one that delivers what `bs` decompresses to -/
def Decoder.Inflates (dec : Decoder) (z : V2.Zlib) : Prop :=
  ∀ {src : Source} {D : src.State → Nat → List UInt8 → Prop}, src.Delivers D →
    ∃ D', (dec.source src).Delivers D' ∧ ∀ s k bs, D s k bs → ∃ k', D' (dec.new s) k' (z.inflate bs)

/-- `received s` are the bytes the writer has taken so far, in order; it will interrupt at most `left s` times -/
structure Sink.Takes (sink : Sink) (received : sink.State → List UInt8) (left : sink.State → Nat) : Prop where
  ok : ∀ {s buf n s'}, buf ≠ [] → sink.write s buf = (.ok n, s') →
    n ≤ buf.length ∧ received s' = received s ++ buf.take n ∧ left s' ≤ left s
  interrupted : ∀ {s buf s'}, buf ≠ [] → sink.write s buf = (.interrupted, s') → received s' = received s ∧ left s' < left s
  failed : ∀ {s buf s'}, buf ≠ [] → sink.write s buf = (.failed, s') → received s' = received s ∧ left s' ≤ left s

/-- the writer went from `s` to `s'`: if `good`, it has taken the bytes `b`, otherwise only a part of them, from the beginning -/
def Wrote {σ : Type} (received : σ → List UInt8) (s s' : σ) (good : Bool) (b : List UInt8) : Prop :=
  match good with
  | true => received s' = received s ++ b
  | false => ∃ p, p <+: b ∧ p ≠ b ∧ received s' = received s ++ p

/-- given enough fuel, `m` gives `x` -/
def Ev {α : Type} (m : Nat → M α) (x : M α) : Prop := ∃ F, ∀ fuel, F ≤ fuel → m fuel = x

/-- a reader with a script: how many bytes to deliver at the next calls, `none` to interrupt; when the script is over it
delivers one byte per call; then it fails -/
def scripted : Source where
  State := List (Option Nat) × List UInt8
  read := fun (script, bs) buf =>
    match script with
    | none :: script => (.interrupted, buf, (script, bs))
    | some n :: script =>
      let n := min (min (n + 1) buf.length) bs.length
      (.ok n, bs.take n ++ buf.drop n, (script, bs.drop n))
    | [] =>
      match bs with
      | [] => (.failed, buf, ([], []))
      | b :: bs => (.ok (min 1 buf.length), (b :: buf.drop 1).take buf.length, ([], if buf = [] then b :: bs else bs))

/-- a writer with a script: how many bytes to take at the next calls, `none` to interrupt; when the script is over it fails -/
def scriptedSink : Sink where
  State := List (Option Nat) × List UInt8
  write := fun (script, bs) buf =>
    match script with
    | none :: script => (.interrupted, (script, bs))
    | some n :: script => (.ok (min n buf.length), (script, bs ++ buf.take n))
    | [] => (.failed, ([], bs))

/-- a decoder for data that is not compressed -/
def storedDecoder : Decoder where
  source := fun src => src
  new := fun s => s
  inner := fun s => s

end Io
end Hdr
