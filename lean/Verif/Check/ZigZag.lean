import Verif.Check.Prelude
import Verif.Model.Varint

/-!
# src/serialization/tests.rs

Transcribed as described in Verif/Check/Prelude.lean.
Not transcribed: `serialize_all_zeros`, `serialize_roundtrip_all_zeros`, `serialize_roundtrip_1_count_for_every_value_1_bucket`, `serialize_roundtrip_1_count_for_every_value_2_buckets`, `serialize_roundtrip_random_v2_u64`, `serialize_roundtrip_random_v2_u32`, `serialize_roundtrip_random_v2_u16`, `serialize_roundtrip_random_v2_u8`, `serialize_roundtrip_random_v2_deflate_u64`, `serialize_roundtrip_random_v2_deflate_u32`, `serialize_roundtrip_random_v2_deflate_u16`, `serialize_roundtrip_random_v2_deflate_u8`, `encode_counts_all_zeros`, `encode_counts_last_count_incremented`, `encode_counts_first_count_incremented`, `encode_counts_first_and_last_count_incremented`, `encode_counts_count_too_big`, `varint_write_3_bit_value`, `varint_write_7_bit_value`, `varint_write_9_bit_value`, `varint_write_u64_max`, `varint_read_u64_max`, `varint_read_u64_zero`, `varint_write_read_roundtrip_rand_1_byte`, `varint_write_read_roundtrip_rand_2_byte`, `varint_write_read_roundtrip_rand_3_byte`, `varint_write_read_roundtrip_rand_4_byte`, `varint_write_read_roundtrip_rand_5_byte`, `varint_write_read_roundtrip_rand_6_byte`, `varint_write_read_roundtrip_rand_7_byte`, `varint_write_read_roundtrip_rand_8_byte`, `varint_write_read_roundtrip_rand_9_byte`, `varint_write_read_slice_roundtrip_rand_1_byte`, `varint_write_read_slice_roundtrip_rand_2_byte`, `varint_write_read_slice_roundtrip_rand_3_byte`, `varint_write_read_slice_roundtrip_rand_4_byte`, `varint_write_read_slice_roundtrip_rand_5_byte`, `varint_write_read_slice_roundtrip_rand_6_byte`, `varint_write_read_slice_roundtrip_rand_7_byte`, `varint_write_read_slice_roundtrip_rand_8_byte`, `varint_write_read_slice_roundtrip_rand_9_byte`, `zig_zag_encode_neg_1`, `zig_zag_encode_i64_min`, `zig_zag_decode_u64_max_to_i64_min`, `zig_zag_roundtrip_random`.
-/

namespace Hdr.Check.ZigZag

open V2

set_option linter.unusedVariables false

/-- src/serialization/tests.rs:423 -/
def zigZagEncode0 : M Unit := do
  check (0 == (zigZagEncode 0))
#guard passes zigZagEncode0

/-- src/serialization/tests.rs:433 -/
def zigZagEncode1 : M Unit := do
  check (2 == (zigZagEncode 1))
#guard passes zigZagEncode1

/-- src/serialization/tests.rs:438 -/
def zigZagDecode0 : M Unit := do
  check (0 == (zigZagDecode 0))
#guard passes zigZagDecode0

/-- src/serialization/tests.rs:443 -/
def zigZagDecode1 : M Unit := do
  check ((-1) == (zigZagDecode 1))
#guard passes zigZagDecode1

/-- src/serialization/tests.rs:448 -/
def zigZagDecode2 : M Unit := do
  check (1 == (zigZagDecode 2))
#guard passes zigZagDecode2

/-- src/serialization/tests.rs:453 -/
def zigZagEncodeI64Max : M Unit := do
  check ((U64MAX - 1) == (zigZagEncode 9223372036854775807))
#guard passes zigZagEncodeI64Max

/-- src/serialization/tests.rs:468 -/
def zigZagDecodeU64MaxPenultimateToI64Max : M Unit := do
  check (9223372036854775807 == (zigZagDecode (U64MAX - 1)))
#guard passes zigZagDecodeU64MaxPenultimateToI64Max

end Hdr.Check.ZigZag
