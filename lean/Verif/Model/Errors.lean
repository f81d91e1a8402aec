import Verif.Model.V2

/-!
# The texts of errors

The `Display` and `Error::source` implementations of the error types. An `io::Error` is represented by its own text.
-/

namespace Hdr.Err

/-- an error of the code, or an I/O error with its text: `V2SerializeError` is `OrIoText V2.SerializeError`,
`IntervalLogWriterError<E>` is `OrIoText E`, where `err` is called `SerializeError` -/
inductive OrIoText (ε : Type) where
  | err (e : ε)
  | io (text : String)
  deriving DecidableEq, Repr

/-- `DeserializeError` with the payload of `IoError`, deserializer.rs:12-29 -/
inductive Deserialize where
  | io (text : String)
  | InvalidCookie | UnsupportedFeature | UnsuitableCounterType | InvalidParameters
  | UsizeTypeTooSmall | EncodedArrayTooLong
  deriving DecidableEq, Repr

/-- `V2DeflateSerializeError`, v2_deflate_serializer.rs:11-18 -/
inductive Deflate where
  | internal (e : OrIoText V2.SerializeError)
  | io (text : String)
  deriving DecidableEq, Repr

/-- `Display for CreationError`, errors/mod.rs:77-88 -/
def creation : CreationError → String
  | .LowIsZero => "Lowest discernible value must be >= 1"
  | .LowExceedsMax => "Lowest discernible value must be <= `u64::max_value() / 2`"
  | .HighLessThanTwiceLow =>
    "Highest trackable value must be >= 2 * lowest discernible value for some internal calculations"
  | .SigFigExceedsMax => "Number of significant digits must be in the range `[0, 5]`"
  | .CannotRepresentSigFigBeyondLow => "Cannot represent sigfig worth of values beyond the lowest discernible value"
  | .UsizeTypeTooSmall => "The `usize` type is too small to represent the desired configuration"

/-- `Display for AdditionError`, errors/mod.rs:92-99 -/
def addition : AdditionError → String
  | .OtherAddendValueExceedsRange => "The other histogram includes values that do not fit in this histogram's range"
  | .ResizeFailedUsizeTypeTooSmall =>
    "The other histogram includes values that would map to indexes in this histogram that are not expressible for `usize`"

/-- `Display for SubtractionError`, errors/mod.rs:103-110 -/
def subtraction : SubtractionError → String
  | .SubtrahendValueExceedsMinuendRange =>
    "The other histogram includes values that do not fit in this histogram's range"
  | .SubtrahendCountExceedsMinuendCount =>
    "The other histogram includes counts that are higher than the current count for a value, and counts cannot go negative"

/-- `Display for RecordError`, errors/mod.rs:114-121 -/
def record : RecordError → String
  | .ValueOutOfRangeResizeDisabled =>
    "The value to record is not representable in this histogram and resizing is disabled"
  | .ResizeFailedUsizeTypeTooSmall =>
    "Auto resizing is enabled and must be used to represent the provided value, but the histogram cannot be resized because `usize` cannot represent sufficient length"

/-- `Display for UsizeTypeTooSmall`, errors/mod.rs:125-132 -/
def usizeTypeTooSmall : String := "The `usize` type is too small to represent the desired configuration"

/-- `Display for DeserializeError`, deserializer.rs:37-67 -/
def deserialize : Deserialize → String
  | .io e => "An i/o operation failed: " ++ e
  | .InvalidCookie => "The cookie (first 4 bytes) did not match that for any supported format"
  | .UnsupportedFeature => "The histogram uses features that this implementation doesn't support"
  | .UnsuitableCounterType => "A count exceeded what can be represented in the chosen counter type"
  | .InvalidParameters => "The serialized parameters were invalid(e.g. lowest value, highest value, etc)"
  | .UsizeTypeTooSmall => "The current system's pointer width cannot represent the encoded histogram"
  | .EncodedArrayTooLong => "The encoded array is longer than it should be for the histogram's value range"

/-- `source` of `DeserializeError`, deserializer.rs:69-76: the text of the error underneath -/
def deserializeSource : Deserialize → Option String
  | .io e => some e
  | _ => none

/-- `Display for V2SerializeError`, v2_serializer.rs:26-39 -/
def v2 : OrIoText V2.SerializeError → String
  | .err .CountNotSerializable => "A count above i64::max_value() cannot be zig-zag encoded"
  | .err .UsizeTypeTooSmall => "Internal calculations cannot be represented in `usize`"
  | .io e => "An i/o operation failed: " ++ e

/-- `source` of `V2SerializeError`, v2_serializer.rs:41-48 -/
def v2Source : OrIoText V2.SerializeError → Option String
  | .io e => some e
  | _ => none

/-- `Display for V2DeflateSerializeError`, v2_deflate_serializer.rs:26-37: both arms have the same text -/
def deflate : Deflate → String
  | .internal e => "The underlying serialization failed: " ++ v2 e
  | .io e => "The underlying serialization failed: " ++ e

/-- `source` of `V2DeflateSerializeError`, v2_deflate_serializer.rs:39-46 -/
def deflateSource : Deflate → Option String
  | .internal e => some (v2 e)
  | .io e => some e

/-- `Display for IntervalLogWriterError<E>`, interval_log/mod.rs:420-429, `disp` being that of `E` -/
def logWriter {ε : Type} (disp : ε → String) : OrIoText ε → String
  | .err e => "Histogram serialization failed: " ++ disp e
  | .io e => "An i/o error occurred: " ++ e

/-- `source` of `IntervalLogWriterError<E>`, interval_log/mod.rs:431-438 -/
def logWriterSource {ε : Type} (disp : ε → String) : OrIoText ε → Option String
  | .err e => some (disp e)
  | .io e => some e

end Hdr.Err
