import Verif.Codec.Types
/-
The domain of the round-trip property (C01): which types encoder and decoder treat alike, and which
values the wire format can represent. Stated on the types alone; refers to no encoder or decoder.
-/
namespace KM

mutual
/-- Types (with the `nullable`/`compact` annotation of the field) on which encoder and decoder implement the
same format. Not in sync: annotated integers and strings with `compact` (the decoder ignores the annotation),
`CompactBytes` (decoded as a plain array), annotated named byte types (encoder panics), pointers other than to
structs, Go arrays (not encodable) and message sets (not decodable). -/
def Ty.InSync : Ty → (nullable compact : Bool) → Bool
  | .bool, _, _ | .int8, _, _ | .int16, _, _ | .uint8, _, _ | .uint16, _, _ | .float64, _, _ => true
  | .varInt, _, _ | .varUint, _, _ | .varInt64, _, _ | .varUint64, _, _ | .uuid, _, _ => true
  | .int32, _, c | .int, _, c | .int64, _, c | .uint32, _, c | .uint, _, c | .uint64, _, c => !c
  | .string, _, c => !c
  | .compactString, _, _ | .nullableString, _, _ | .compactNullableString, _, _ => true
  | .bytes, _, _ => true
  | .nullableBytes, n, c | .compactNullableBytes, n, c => !n && !c
  | .slice e, _, _ => e.InSync false false
  | .struct fs, _, _ => fs.InSync
  | .ptr t, _, _ => match t with
    | .struct fs => fs.InSync
    | _ => false
  | .compactBytes, _, _ | .array _, _, _ | .messageSetV1, _, _ => false
def Fields.InSync : Fields → Bool
  | .nil => true
  | .cons _ tag t rest => t.InSync (kafkaTags tag).1 (kafkaTags tag).2 && rest.InSync
end

mutual
/-- Values the format can represent: lengths fit their prefix, `int`/`uint` fit 32 bits, and slices and
pointers that have no null form on the decoding side are not nil. -/
def Ty.Fits : (t : Ty) → t.den → Prop
  | .int, v => -2 ^ 31 ≤ v.toInt ∧ v.toInt < 2 ^ 31
  | .uint, v => v.toNat < 2 ^ 32
  | .string, v => v.length < 2 ^ 15
  | .compactString, v => v.length + 1 < 2 ^ 31
  | .nullableString, v => ∀ s, v = some s → s.length < 2 ^ 15
  | .compactNullableString, v | .nullableBytes, v | .compactNullableBytes, v => ∀ s, v = some s → s.length + 1 < 2 ^ 31
  | .bytes, v | .compactBytes, v => ∃ b, v = some b ∧ b.length + 1 < 2 ^ 31
  | .slice e, v | .array e, v => ∃ xs, v = some xs ∧ xs.length + 1 < 2 ^ 31 ∧ ∀ x ∈ xs, e.Fits x
  | .struct fs, v => fs.Fits v
  | .ptr t, v => ∃ x, v = some x ∧ t.Fits x
  | .bool, _ | .int8, _ | .int16, _ | .int32, _ | .int64, _ | .uint8, _ | .uint16, _ | .uint32, _ | .uint64, _
  | .float64, _ | .varInt, _ | .varUint, _ | .varInt64, _ | .varUint64, _ | .uuid, _ | .messageSetV1, _ => True
def Fields.Fits : (fs : Fields) → fs.den → Prop
  | .nil, _ => True
  | .cons _ _ t rest, (v, vs) => t.Fits v ∧ rest.Fits vs
end

end KM
