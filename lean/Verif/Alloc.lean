import Verif.Dispatch
/-
Memory reserved while a request is read: `reflect.MakeSlice(reflect.SliceOf(elem), 0, length)`, /repo/decoder.go:519, reserves room for `length`
elements, where `length` is what the bytes announce, before any element is read. The functions below follow the decoder (`Codec/Decode.lean`) and list these
reservations. Left out: what `reflect.Append` allocates when a slice outgrows its room (it never does), the structs of `reflect.New` (line 558) and the
copies of strings, which are as long as the bytes read.
-/
namespace KM

/-- One call of `MakeSlice`: room for `count` elements of `size` bytes each. -/
structure Reserve where
  count : Nat
  size : Nat
deriving DecidableEq, Repr

def Reserve.bytes (x : Reserve) : Nat := x.count * x.size

def roundUp (n a : Nat) : Nat := (n + a - 1) / a * a

mutual
/-- Alignment of a Go type on a 64-bit machine. -/
def Ty.goAlign : Ty → Nat
  | .bool | .int8 | .uint8 | .uuid => 1
  | .int16 | .uint16 => 2
  | .int32 | .uint32 | .varInt | .varUint => 4
  | .struct fs => fs.goAlign
  | .array e => e.goAlign
  | _ => 8
def Fields.goAlign : Fields → Nat
  | .nil => 1
  | .cons _ _ t rest => max t.goAlign rest.goAlign
end

mutual
/-- Size of a Go type on a 64-bit machine: a string is a pointer and a length, a slice has a capacity as well. The length of a Go array type is not part
of `Ty`, and no request has one; the size given is that of one element. -/
def Ty.goSize : Ty → Nat
  | .bool | .int8 | .uint8 => 1
  | .int16 | .uint16 => 2
  | .int32 | .uint32 | .varInt | .varUint => 4
  | .int | .uint | .int64 | .uint64 | .float64 | .varInt64 | .varUint64 => 8
  | .uuid => 16
  | .string | .compactString => 16
  | .nullableString | .compactNullableString | .ptr _ => 8
  | .bytes | .compactBytes | .nullableBytes | .compactNullableBytes | .slice _ => 24
  | .array e => e.goSize
  | .struct fs => roundUp (fs.goEnd 0) fs.goAlign
  | .messageSetV1 => 40
/-- Where the fields end when the first of them is placed at or after `at`. -/
def Fields.goEnd : Fields → Nat → Nat
  | .nil, o => o
  | .cons _ _ t rest, o => rest.goEnd (roundUp o t.goAlign + t.goSize)
end

/-- The loop of /repo/decoder.go:520-527: `f` reads an element, `g` lists what reading it reserves. -/
def reserveItems {α : Type} (f : Nat → Res (Option α)) (g : Nat → List Reserve) (assignable : Bool) : Nat → Nat → List Reserve
  | 0, _ => []
  | k + 1, next => g next ++ match f next with
    | .ok next (some _) => if assignable then reserveItems f g assignable k next else []
    | _ => []

/-- /repo/decoder.go:516-532 -/
def reserveFixedArray {α : Type} (f : Nat → Res (Option α)) (g : Nat → List Reserve) (size : Nat) (assignable : Bool) (offset : Nat) (length : Int) : List Reserve :=
  if length ≥ 0 then ⟨length.toNat, size⟩ :: reserveItems f g assignable length.toNat offset else []

/-- /repo/decoder.go:534-541 -/
def reserveVarArray {α : Type} (f : Nat → Res (Option α)) (g : Nat → List Reserve) (size : Nat) (assignable : Bool) (r : Reader) (offset : Nat) : List Reserve :=
  match peekInt32 r offset with
  | .ok next length => reserveFixedArray f g size assignable next length.toInt
  | _ => []

/-- /repo/decoder.go:543-554 -/
def reserveCompactVarArray {α : Type} (f : Nat → Res (Option α)) (g : Nat → List Reserve) (size : Nat) (assignable : Bool) (r : Reader) (offset : Nat) : List Reserve :=
  match peekVarInt r offset with
  | .ok next length => if length = 0 then [] else reserveFixedArray f g size assignable next (length - 1).toInt
  | _ => []

mutual
/-- /repo/decoder.go:349-499 -/
def reserveWorker : Ty → Reader → Nat → (compact : Bool) → List Reserve
  | .array e, r, offset, _ => reserveCompactVarArray (fun o => peekObjectWorker e r o false false) (fun o => reserveWorker e r o false) e.goSize e.assignable r offset
  | .bytes, r, offset, compact | .compactBytes, r, offset, compact =>
      if compact then reserveCompactVarArray (fun o => (peekUint8 r o).map some) (fun _ => []) 1 true r offset
      else reserveVarArray (fun o => (peekUint8 r o).map some) (fun _ => []) 1 true r offset
  | .slice e, r, offset, compact =>
      if compact then reserveCompactVarArray (fun o => peekObjectWorker e r o false false) (fun o => reserveWorker e r o false) e.goSize e.assignable r offset
      else reserveVarArray (fun o => peekObjectWorker e r o false false) (fun o => reserveWorker e r o false) e.goSize e.assignable r offset
  | .struct fs, r, offset, _ => reserveStruct fs r offset
  | .ptr t, r, offset, _ => match t with
      | .struct fs => reserveStruct fs r offset
      | _ => []
  | _, _, _, _ => []
/-- /repo/decoder.go:556-574 -/
def reserveStruct : Fields → Reader → Nat → List Reserve
  | .nil, _, _ => []
  | .cons _ tag t rest, r, offset =>
    reserveWorker t r offset (kafkaTags tag).2 ++ match peekObjectWorker t r offset (kafkaTags tag).1 (kafkaTags tag).2 with
      | .ok next (some _) => if t.assignable then reserveStruct rest r next else []
      | _ => []
end

/-- The request type of each handler (the type argument of `readRequest`); ApiVersions reads none. -/
def Api.fields : Api → Fields
  | .metadata => metadataRequestFields
  | .findCoordinator => findCoordinatorRequestFields
  | .offsetFetch => offsetFetchRequestFields
  | .joinGroup => joinGroupRequestFields
  | .syncGroup => syncGroupRequestFields
  | .leaveGroup => leaveGroupRequestFields
  | .apiVersions => .nil
  | .heartbeat => heartbeatRequestFields
  | .listOffsets => listOffsetsRequestFields
  | .fetch => fetchRequestFields
  | .offsetCommit => commitRequestFields

/-- What the dispatcher reserves for a message, /repo/kafka-client.go:164-214: the header (which has no arrays), then the request. -/
def reserved (r : Reader) : List Reserve :=
  match peekObject (.struct headerFields) r 0 with
  | .ok next hdr =>
    let (apiKey, version, _, ()) := hdr.getD (0, 0, 0, ())
    match peekString r next with
    | .ok next _ =>
      match GoMap.get apiTable (makeApiKey apiKey.toInt version.toInt) with
      | some api => reserveStruct api.fields (r.discard next) 0
      | none => []
    | _ => []
  | _ => []

end KM
