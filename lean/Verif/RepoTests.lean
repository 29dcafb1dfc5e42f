import Verif.Codec.Tags
import Verif.ApiTable
/-
The repository's own codec tests, /repo/encoding_test.go, carried out on the model: the values the test encodes are encoded and decoded by the model,
evaluated by the kernel, and compared with what the test expects. This checks the model against the tests (which the authors ran); it proves no
property. Partial-read tests of the form `for i := 1; i < full.Len()-1; i++` are `partials`.
-/
namespace KM.RepoTests
open KM

mutual
/-- Values can be compared. -/
def decEq : (t : Ty) → DecidableEq t.den
  | .bool => inferInstanceAs (DecidableEq Bool)
  | .int8 => inferInstanceAs (DecidableEq (BitVec 8))
  | .int16 | .uint16 => inferInstanceAs (DecidableEq (BitVec 16))
  | .int32 | .uint32 | .varInt | .varUint => inferInstanceAs (DecidableEq (BitVec 32))
  | .int | .int64 | .uint | .uint64 | .float64 | .varInt64 | .varUint64 => inferInstanceAs (DecidableEq (BitVec 64))
  | .uint8 => inferInstanceAs (DecidableEq UInt8)
  | .uuid => inferInstanceAs (DecidableEq UUID)
  | .string | .compactString => inferInstanceAs (DecidableEq Bytes)
  | .nullableString | .compactNullableString | .bytes | .compactBytes | .nullableBytes | .compactNullableBytes => inferInstanceAs (DecidableEq (Option Bytes))
  | .slice e | .array e => have := decEq e; inferInstanceAs (DecidableEq (Option (List e.den)))
  | .struct fs => decEqFields fs
  | .ptr t => have := decEq t; inferInstanceAs (DecidableEq (Option t.den))
  | .messageSetV1 => inferInstanceAs (DecidableEq MessageSetV1)
def decEqFields : (fs : Fields) → DecidableEq fs.den
  | .nil => inferInstanceAs (DecidableEq Unit)
  | .cons _ _ t rest => have := decEq t; have := decEqFields rest; inferInstanceAs (DecidableEq (t.den × rest.den))
end

instance (t : Ty) : DecidableEq t.den := decEq t

/-- What several calls of `encodeObject` write. -/
def written : List Dyn → Option Bytes
  | [] => some []
  | x :: xs => do
    let b ← encodeObject x.1 x.2
    let bs ← written xs
    return b ++ bs

/-- Repeated `peekObject` gives these values. `none` is an untyped nil. -/
def reads (t : Ty) (r : Reader) : Nat → List (Option t.den) → Option Nat
  | off, [] => some off
  | off, v :: vs => match peekObject t r off with
    | .ok next x => if x = v then reads t r next vs else none
    | _ => none

/-- The next `peekObject` reports that there is not enough data. -/
def short (t : Ty) (r : Reader) (off : Nat) : Bool := match peekObject t r off with
  | .short => true
  | _ => false

/-- Encode, decode and compare, and no further value. -/
def passes (enc : List Dyn) (t : Ty) (want : List (Option t.den)) : Bool := match written enc with
  | none => false
  | some b => match reads t ⟨b⟩ 0 want with
    | none => false
    | some off => short t ⟨b⟩ off

/-- The proper prefixes the partial tests look at are not enough. -/
def partials (enc : List Dyn) (t : Ty) : Bool := match written enc with
  | none => false
  | some b => (List.range (b.length - 1)).all fun i => i == 0 || short t ⟨b.take i⟩ 0

/-- "test" -/
def test : Bytes := [116, 101, 115, 116]
/-- "test2" -/
def test2 : Bytes := [116, 101, 115, 116, 50]

/-- `struct { A t }` with or without tag, /repo/encoding_test.go:27-61 -/
def one (tag : List String) (t : Ty) : Ty := .struct (.cons "A" tag t .nil)

/-- TestEncodeDecodeBool -/
example : (passes [⟨.bool, true⟩] .bool [some true] : Bool) = true := by decide +kernel

/-- TestEncodeDecodeInt8 -/
example : (passes [⟨.int8, 123#8⟩, ⟨.int8, 34#8⟩] .int8 [some (123#8), some (34#8)] : Bool) = true := by decide +kernel

/-- TestEncodeDecodeInt16 -/
example : (passes [⟨.int16, 1234#16⟩, ⟨.int16, 12345#16⟩] .int16 [some (1234#16), some (12345#16)] : Bool) = true := by decide +kernel

/-- TestEncodeDecodeInt32 -/
example : (passes [⟨.int32, 12345#32⟩, ⟨.int32, 123456#32⟩] .int32 [some 12345#32, some 123456#32] : Bool) = true := by decide +kernel

/-- TestEncodeDecodeInt64 -/
example : (passes [⟨.int64, 123456#64⟩, ⟨.int64, 9223372036854775808#64⟩] .int64 [some 123456#64, some 9223372036854775808#64] : Bool) = true := by decide +kernel

/-- TestEncodeDecodeUint16 -/
example : (passes [⟨.uint16, 1234#16⟩, ⟨.uint16, 65535#16⟩] .uint16 [some 1234#16, some 65535#16] : Bool) = true := by decide +kernel

/-- TestEncodeDecodeUint32 -/
example : (passes [⟨.uint32, 12345#32⟩, ⟨.uint32, 4294967295#32⟩] .uint32 [some 12345#32, some 4294967295#32] : Bool) = true := by decide +kernel

/-- TestEncodeDecodeUint64 -/
example : (passes [⟨.uint64, 123456#64⟩, ⟨.uint64, 18446744073709551615#64⟩] .uint64 [some 123456#64, some 18446744073709551615#64] : Bool) = true := by decide +kernel

/-- TestEncodeDecodeVarInt -/
example : (passes [⟨.varInt, 12#32⟩, ⟨.varInt, 2147483647#32⟩] .varInt [some 12#32, some 2147483647#32] : Bool) = true := by decide +kernel

/-- TestEncodeDecodeVarIntTag -/
example : (passes [⟨one ["compact"] .int32, (12#32, ())⟩, ⟨one ["compact"] .int32, (2147483647#32, ())⟩] .varInt [some 12#32, some 2147483647#32] : Bool) = true := by decide +kernel

/-- TestEncodeDecodeVarInt2 -/
example : (passes [⟨.varInt, 4294967295#32⟩] .varInt [some 4294967295#32] : Bool) = true := by decide +kernel

/-- TestEncodeDecodeVarInt3 -/
example : (passes [⟨.varInt, 2147483648#32⟩] .varInt [some 2147483648#32] : Bool) = true := by decide +kernel

/-- TestEncodeDecodeVarInt64 -/
example : (passes [⟨.varInt64, 12#64⟩, ⟨.varInt64, 9223372036854775807#64⟩] .varInt64 [some 12#64, some 9223372036854775807#64] : Bool) = true := by decide +kernel

/-- TestEncodeDecodeVarInt64Tag -/
example : (passes [⟨one ["compact"] .int64, (12#64, ())⟩, ⟨one ["compact"] .int64, (9223372036854775807#64, ())⟩] .varInt64 [some 12#64, some 9223372036854775807#64] : Bool) = true := by decide +kernel

/-- TestEncodeDecodeVarInt642 -/
example : (passes [⟨.varInt64, 18446744073709551615#64⟩] .varInt64 [some 18446744073709551615#64] : Bool) = true := by decide +kernel

/-- TestEncodeDecodeVarInt643 -/
example : (passes [⟨.varInt64, 9223372036854775808#64⟩] .varInt64 [some 9223372036854775808#64] : Bool) = true := by decide +kernel

/-- TestEncodeDecodeVarUint -/
example : (passes [⟨.varUint, 1234#32⟩, ⟨.varUint, 4294967295#32⟩] .varUint [some 1234#32, some 4294967295#32] : Bool) = true := by decide +kernel

/-- TestEncodeDecodeVarUintTag -/
example : (passes [⟨one ["compact"] .uint32, (1234#32, ())⟩, ⟨one ["compact"] .uint32, (4294967295#32, ())⟩] .varUint [some 1234#32, some 4294967295#32] : Bool) = true := by decide +kernel

/-- TestEncodeDecodeVarUint2 -/
example : (passes [⟨.varUint, 1#32⟩] .varUint [some 1#32] : Bool) = true := by decide +kernel

/-- TestEncodeDecodeVarUint64 -/
example : (passes [⟨.varUint64, 1234#64⟩, ⟨.varUint64, 18446744073709551615#64⟩] .varUint64 [some 1234#64, some 18446744073709551615#64] : Bool) = true := by decide +kernel

/-- TestEncodeDecodeVarUint64Tag -/
example : (passes [⟨one ["compact"] .uint64, (1234#64, ())⟩, ⟨one ["compact"] .uint64, (18446744073709551615#64, ())⟩] .varUint64 [some 1234#64, some 18446744073709551615#64] : Bool) = true := by decide +kernel

/-- TestEncodeDecodeVarUint642 -/
example : (passes [⟨.varUint64, 1#64⟩] .varUint64 [some 1#64] : Bool) = true := by decide +kernel

/-- TestEncodeDecodeUint8 -/
example : (passes [⟨.uint8, (123 : UInt8)⟩, ⟨.uint8, (250 : UInt8)⟩] .uint8 [some (123 : UInt8), some (250 : UInt8)] : Bool) = true := by decide +kernel

/-- TestEncodeDecodeVarInt2: "-1 should take one byte" -/
example : ((written [⟨.varInt, (-1 : BitVec 32)⟩]).map (·.length) == some 1 : Bool) = true := by decide +kernel

/-- TestEncodeDecodeVarInt3: "min int should take five bytes" -/
example : ((written [⟨.varInt, 0x80000000#32⟩]).map (·.length) == some 5 : Bool) = true := by decide +kernel

/-- TestEncodeDecodeVarInt642: number of bytes -/
example : ((written [⟨.varInt64, 18446744073709551615#64⟩]).map (·.length) == some 1 : Bool) = true := by decide +kernel

/-- TestEncodeDecodeVarInt643: number of bytes -/
example : ((written [⟨.varInt64, 9223372036854775808#64⟩]).map (·.length) == some 10 : Bool) = true := by decide +kernel

/-- TestEncodeDecodeVarUint2: number of bytes -/
example : ((written [⟨.varUint, 1#32⟩]).map (·.length) == some 1 : Bool) = true := by decide +kernel

/-- TestEncodeDecodeVarUint642: number of bytes -/
example : ((written [⟨.varUint64, 1#64⟩]).map (·.length) == some 1 : Bool) = true := by decide +kernel

/-- TestEncodeDecodeFloat64, on the bit patterns -/
example : (passes [⟨.float64, 0x405edd2f1a9fbe77#64⟩, ⟨.float64, 0x7fefffffffffffff#64⟩] .float64 [some (0x405edd2f1a9fbe77#64), some (0x7fefffffffffffff#64)] : Bool) = true := by decide +kernel

/-- TestEncodeDecodeString, TestEncodeDecodeStringUtil -/
example : (passes [⟨.string, test⟩, ⟨.string, test2⟩] .string [some (test), some (test2)] : Bool) = true := by decide +kernel

/-- TestEncodeDecodeStringPartial -/
example : (match written [⟨.string, test⟩] with | some b => short .string ⟨b.take (b.length - 1)⟩ 0 | none => false : Bool) = true := by decide +kernel

/-- TestEncodeDecodeNullableString -/
example : (passes [⟨.ptr .string, some test⟩, ⟨.ptr .string, some test⟩] .nullableString [some (some test), some (some test)] : Bool) = true := by decide +kernel

/-- TestEncodeDecodeStringFromNullableString -/
example : (passes [⟨.nullableString, none⟩] .string [some []] : Bool) = true := by decide +kernel

/-- TestEncodeDecodeNullableStringNil -/
example : (passes [⟨.ptr .string, none⟩] .nullableString [some none] : Bool) = true := by decide +kernel

/-- TestEncodeDecodeUuid -/
example : (passes [⟨.uuid, ⟨[1, 2, 3, 4, 5, 6, 7, 8, 9, 10, 11, 12, 13, 14, 15, 16], rfl⟩⟩] .uuid [some ⟨[1, 2, 3, 4, 5, 6, 7, 8, 9, 10, 11, 12, 13, 14, 15, 16], rfl⟩] : Bool) = true := by decide +kernel

/-- TestEncodeDecodeCompactString -/
example : (passes [⟨.compactString, test⟩, ⟨.compactString, test2⟩] .compactString [some (test), some (test2)] : Bool) = true := by decide +kernel

/-- TestEncodeDecodeCompactStringFromNullable -/
example : (passes [⟨.compactNullableString, none⟩] .compactString [some []] : Bool) = true := by decide +kernel

/-- TestEncodeDecodeCompactStringTag -/
example : (passes [⟨one ["compact"] .string, (test, ())⟩, ⟨one ["compact"] .string, (test2, ())⟩] .compactString [some test, some test2] : Bool) = true := by decide +kernel

/-- TestEncodeDecodeCompactNullableString -/
example : (passes [⟨.compactNullableString, some test⟩, ⟨.compactNullableString, some test⟩] .compactNullableString [some (some test), some (some test)] : Bool) = true := by decide +kernel

/-- TestEncodeDecodeCompactNullableStringPartial -/
example : (partials [⟨.compactNullableString, some test⟩] .compactNullableString : Bool) = true := by decide +kernel

/-- TestEncodeDecodeCompactNullableStringNilPartial -/
example : (partials [⟨.compactNullableString, none⟩] .compactNullableString : Bool) = true := by decide +kernel

/-- TestEncodeDecodeCompactNullableStringTag -/
example : (passes [⟨one ["compact", "nullable"] (.ptr .compactString), (some test, ())⟩] .compactNullableString [some (some test)] : Bool) = true := by decide +kernel

/-- TestEncodeDecodeCompactNullableStringNil -/
example : (passes [⟨.compactNullableString, none⟩] .compactNullableString [some none] : Bool) = true := by decide +kernel

/-- TestEncodeDecodeNullableBytes -/
example : (passes [⟨.nullableBytes, some test⟩, ⟨.nullableBytes, some test⟩] .nullableBytes [some (some test), some (some test)] : Bool) = true := by decide +kernel

/-- TestEncodeDecodeNullableBytesPartial -/
example : (partials [⟨.nullableBytes, some test⟩] .nullableBytes : Bool) = true := by decide +kernel

/-- TestEncodeDecodeNullableBytesNilPartial -/
example : (partials [⟨.nullableBytes, none⟩] .nullableBytes : Bool) = true := by decide +kernel

/-- TestEncodeDecodeNullableBytesTag -/
example : (passes [⟨one [] .bytes, (some test, ())⟩] .nullableBytes [some (some test)] : Bool) = true := by decide +kernel

/-- TestEncodeDecodeNullableBytesNil -/
example : (passes [⟨.nullableBytes, none⟩] .nullableBytes [some none] : Bool) = true := by decide +kernel

/-- TestEncodeDecodeCompactNullableBytes -/
example : (passes [⟨.compactNullableBytes, some test⟩, ⟨.compactNullableBytes, some test⟩] .compactNullableBytes [some (some test), some (some test)] : Bool) = true := by decide +kernel

/-- TestEncodeDecodeCompactNullableBytesPartial -/
example : (partials [⟨.compactNullableBytes, some test⟩] .compactNullableBytes : Bool) = true := by decide +kernel

/-- TestEncodeDecodeCompactNullableBytesNilPartial -/
example : (partials [⟨.compactNullableBytes, none⟩] .compactNullableBytes : Bool) = true := by decide +kernel

/-- TestEncodeDecodeCompactNullableBytesTag -/
example : (passes [⟨one ["compact"] .bytes, (some test, ())⟩] .compactNullableBytes [some (some test)] : Bool) = true := by decide +kernel

/-- TestEncodeDecodeCompactNullableBytesNil -/
example : (passes [⟨.compactNullableBytes, none⟩] .compactNullableBytes [some none] : Bool) = true := by decide +kernel

/-- TestEncodeDecodeArray -/
example : (passes [⟨(.slice .int32), some [1#32, 2#32, 3#32]⟩, ⟨(.slice .int32), some [1#32, 2#32, 3#32]⟩] (.slice .int32) [some (some [1#32, 2#32, 3#32]), some (some [1#32, 2#32, 3#32])] : Bool) = true := by decide +kernel

/-- TestEncodeDecodeArrayNil -/
example : (passes [⟨.slice .int32, none⟩] (.slice .int32) [none] : Bool) = true := by decide +kernel

/-- TestEncodeDecodeCompactArray -/
example : (passes [⟨one ["compact"] (.slice .int32), (some [1#32, 2#32, 3#32], ())⟩, ⟨one ["compact"] (.slice .int32), (some [1#32, 2#32, 3#32], ())⟩] (.array .int32) [some (some [1#32, 2#32, 3#32]), some (some [1#32, 2#32, 3#32])] : Bool) = true := by decide +kernel

/-- TestEncodeDecodeCompactArrayNil -/
example : (passes [⟨one ["compact"] (.slice .int32), (none, ())⟩] (.array .int32) [none] : Bool) = true := by decide +kernel

/-- `testValue` and `testStruct`, /repo/encoding_test.go:14-26 -/
def testValue : Fields := .cons "A" [] .uint (.cons "B" [] .uint .nil)
def testStruct : Ty := .struct (.cons "Value1" [] .int (.cons "Value2" [] .string (.cons "Value3" [] (.slice .int16)
  (.cons "Value4" [] (.struct testValue) (.cons "Value5" [] (.ptr (.struct testValue)) (.cons "Value6" ["compact"] (.slice .int16) .nil))))))
def testRef : testStruct.den :=
  (123#64, test, some [5#16, 10#16, 15#16], (4#64, 24#64, ()), some (222#64, 444#64, ()), some [100#16, 200#16], ())

/-- TestEncodeDecodeStruct -/
example : (passes [⟨testStruct, testRef⟩, ⟨.ptr testStruct, some testRef⟩] testStruct [some testRef, some testRef] : Bool) = true := by decide +kernel

/-- TestEncodeDecodeStructPartial -/
example : (partials [⟨testStruct, testRef⟩] testStruct : Bool) = true := by decide +kernel

/-- TestEncodeDecodeByteArray -/
example : (passes [⟨.bytes, some [1, 2, 3]⟩, ⟨.bytes, some [1, 2, 3]⟩] .bytes [some (some [1, 2, 3]), some (some [1, 2, 3])] : Bool) = true := by decide +kernel

/-- TestEncodeDecodeByteArrayNil -/
example : (passes [⟨.bytes, none⟩] .bytes [none] : Bool) = true := by decide +kernel

/-- The result of `peekTags` in comparable form: where it ended; raw tags; tags decoded as strings. -/
def tagResult : Res (List (Int × TagVal)) → Option (Nat × List (Int × Bytes))
  | .ok next l => some (next, l.map fun e => (e.1, match e.2 with
    | .raw b => b
    | .known .string (some s) => s
    | .known .compactString (some s) => s
    | _ => []))
  | _ => none

/-- `encodeTags` without the sorting. -/
def encodeSorted (tags : TagMap) : Option Bytes := do
  let body ← encodeTagIds tags (GoMap.keys tags)
  return encodeVarUint (BitVec.ofNat 32 tags.length) ++ body

theorem encodeTags_sorted {tags : TagMap} (h : (GoMap.keys tags).Pairwise (· ≤ ·)) : encodeTags tags = encodeSorted tags := by
  unfold encodeTags encodeSorted
  rw [sorted_perm_eq (List.mergeSort_perm _ _) (sortInts_pairwise _) h]

def testTags : TagMap := [(1, ⟨.string, test⟩), (2, ⟨.compactString, test2⟩)]
def testTagFields : List (Int × Ty) := [(1, .string), (2, .compactString)]

/-- TestEncodeDecodeTags -/
example : (match encodeTags testTags with
  | none => false
  | some b => tagResult (peekTags ⟨b ++ b⟩ 0 testTagFields) == some (b.length, [(1, test), (2, test2)]) &&
    (tagResult (peekTags ⟨b ++ b⟩ b.length testTagFields) == some (2 * b.length, [(1, test), (2, test2)]) && (tagResult (peekTags ⟨b ++ b⟩ (2 * b.length) testTagFields)).isNone) : Bool) = true := by
  rw [encodeTags_sorted (by decide)]; decide +kernel

/-- TestEncodeDecodeTagsPartial -/
example : (match encodeTags (testTags ++ [(3, ⟨.int, 123#64⟩)]) with
  | none => false
  | some b => (List.range (b.length - 1)).all fun i => i == 0 || (tagResult (peekTags ⟨b.take i⟩ 0 testTagFields)).isNone : Bool) = true := by
  rw [encodeTags_sorted (by decide)]; decide +kernel

/-- TestEncodeDecodeEmpty -/
example : (match encodeTags [] with
  | none => false
  | some b => tagResult (peekTags ⟨b ++ b⟩ 0 []) == some (b.length, []) && (tagResult (peekTags ⟨b ++ b⟩ b.length []) == some (2 * b.length, []) &&
    (tagResult (peekTags ⟨b ++ b⟩ (2 * b.length) [])).isNone) : Bool) = true := by
  rw [encodeTags_sorted (by decide)]; decide +kernel

/-- TestEncodeDecodeTagsForeign -/
example : (match encodeTags testTags with
  | none => false
  | some b => tagResult (peekTags ⟨b⟩ 0 []) == some (b.length, [(1, [0, 4, 116, 101, 115, 116]), (2, [12, 116, 101, 115, 116, 50])]) : Bool) = true := by
  rw [encodeTags_sorted (by decide)]; decide +kernel

/-- TestEncodeDecodeApiVersions -/
example : (passes [⟨apiVersionsResponseTy, (0#16, some [(1#16, 0#16, 1#16, ()), (13#16, 1#16, 6#16, ())], ())⟩, ⟨.ptr apiVersionsResponseTy, some (0#16, some [(1#16, 0#16, 1#16, ()), (13#16, 1#16, 6#16, ())], ())⟩] apiVersionsResponseTy [some (0#16, some [(1#16, 0#16, 1#16, ()), (13#16, 1#16, 6#16, ())], ()), some (0#16, some [(1#16, 0#16, 1#16, ()), (13#16, 1#16, 6#16, ())], ())] : Bool) = true := by decide +kernel

end KM.RepoTests
