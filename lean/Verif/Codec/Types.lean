import Verif.Codec.Varint
/-
The Go types the reflective codec distinguishes, and their values.
/repo/encoder.go:16-45 (named wire types), /repo/encoder.go:51-203 and /repo/decoder.go:349-499 (the
`reflect.Kind` / type-name switches).
-/
namespace KM

/-- Kafka message of the v0/v1 message-set format, /repo/encoder.go:35-44. `Key`/`Value` are
`Option Bytes` because a nil slice and an empty slice are encoded differently. -/
structure MessageV1 where
  offset : I64
  messageSize : I32
  crc : I32
  magicByte : I8
  attributes : I8
  timestamp : I64
  key : Option Bytes
  value : Option Bytes
deriving DecidableEq, Repr

/-- /repo/encoder.go:29-33; `totalSize` is a Go `int`. -/
structure MessageSetV1 where
  msgs : List MessageV1
  offset : I64
  totalSize : Int
deriving DecidableEq, Repr

mutual
/-- The Go types the codec is used at. `bytes` is the unnamed `[]byte`; `nullableString`,
`compactNullableString` are the *named* pointer types of /repo/encoder.go:22-23, `ptr t` is an unnamed
pointer; `array` is a Go array type (which the decoder reads as a compact array,
/repo/decoder.go:422-426); struct types list their exported fields. -/
inductive Ty where
  | bool | int8 | int16 | int32 | int | int64
  | uint8 | uint16 | uint32 | uint | uint64 | float64
  | varInt | varUint | varInt64 | varUint64
  | uuid
  | string | compactString
  | nullableString | compactNullableString
  | bytes | compactBytes | nullableBytes | compactNullableBytes
  | slice (elem : Ty)
  | array (elem : Ty)
  | struct (fs : Fields)
  | ptr (target : Ty)
  | messageSetV1
/-- Struct fields: name, the comma-separated parts of the `kafka:"..."` tag, type. -/
inductive Fields where
  | nil
  | cons (name : String) (tag : List String) (t : Ty) (rest : Fields)
end

/-- `uuid.UUID`: 16 bytes. -/
abbrev UUID := { b : Bytes // b.length = 16 }

mutual
/-- Values of a Go type. Go strings are byte strings. `int`/`uint` are 64-bit. A float64 is its bit
pattern (`math.Float64bits`). A slice is `none` when nil; a pointer is `none` when nil. -/
@[reducible] def Ty.den : Ty → Type
  | .bool => Bool
  | .int8 => I8 | .int16 => I16 | .int32 => I32 | .int => I64 | .int64 => I64
  | .uint8 => UInt8 | .uint16 => BitVec 16 | .uint32 => BitVec 32 | .uint => BitVec 64 | .uint64 => BitVec 64
  | .float64 => BitVec 64
  | .varInt => BitVec 32 | .varUint => BitVec 32 | .varInt64 => BitVec 64 | .varUint64 => BitVec 64
  | .uuid => UUID
  | .string => Bytes | .compactString => Bytes
  | .nullableString => Option Bytes | .compactNullableString => Option Bytes
  | .bytes => Option Bytes | .compactBytes => Option Bytes
  | .nullableBytes => Option Bytes | .compactNullableBytes => Option Bytes
  | .slice e => Option (List e.den)
  | .array e => Option (List e.den)
  | .struct fs => fs.den
  | .ptr t => Option t.den
  | .messageSetV1 => MessageSetV1
@[reducible] def Fields.den : Fields → Type
  | .nil => Unit
  | .cons _ _ t rest => t.den × rest.den
end

/-- `kafkaTags` on the comma-separated parts of the tag, /repo/decoder.go:501-514: (nullable, compact). -/
def kafkaTags (parts : List String) : Bool × Bool :=
  parts.foldl (fun (nc : Bool × Bool) part =>
    if part = "compact" then (nc.1, true) else if part = "nullable" then (true, nc.2) else nc) (false, false)

end KM
