import Verif.Spec.Wire
import Verif.Spec.Protocol
/-
How a client reads the responses of the supported APIs: parsers that follow the field layout published with the protocol.
Independent of the codec model.
-/
namespace KM.Spec.Client

/-- A parser consumes bytes and may fail. -/
abbrev Parse := StateT Bytes Option

/-- The next `n` bytes. -/
def take (n : Nat) : Parse Bytes := fun b => if n ≤ b.length then some (b.take n, b.drop n) else none

def int8 : Parse I8 := do return BitVec.ofNat 8 (be (← take 1))
def int16 : Parse I16 := do return BitVec.ofNat 16 (be (← take 2))
def int32 : Parse I32 := do return BitVec.ofNat 32 (be (← take 4))
def int64 : Parse I64 := do return BitVec.ofNat 64 (be (← take 8))
def bool : Parse Bool := do return (← take 1) != [0]

/-- STRING -/
def str : Parse Bytes := do
  let n ← int16
  if n.toInt < 0 then failure else take n.toNat

/-- NULLABLE_STRING -/
def nullableStr : Parse (Option Bytes) := do
  let n ← int16
  if n.toInt < 0 then return none else return some (← take n.toNat)

/-- BYTES -/
def bytes : Parse Bytes := do
  let n ← int32
  if n.toInt < 0 then failure else take n.toNat

/-- NULLABLE_BYTES -/
def nullableBytes : Parse (Option Bytes) := do
  let n ← int32
  if n.toInt < 0 then return none else return some (← take n.toNat)

def times {α : Type} (p : Parse α) : Nat → Parse (List α)
  | 0 => return []
  | n + 1 => do
    let x ← p
    let xs ← times p n
    return x :: xs

/-- ARRAY (not null) -/
def array {α : Type} (p : Parse α) : Parse (List α) := do
  let n ← int32
  if n.toInt < 0 then failure else times p n.toNat

/-- Elements up to the end of the bytes. -/
def all {α : Type} (p : Parse α) : Nat → Bytes → Option (List α)
  | _, [] => some []
  | 0, _ => none
  | fuel + 1, b => do
    let (x, rest) ← p b
    let xs ← all p fuel rest
    return x :: xs

/-- One message of format version 1, read by its fields; the message size is taken as it is, see C40. -/
def message : Parse MessageV1 := do
  let offset ← int64
  let size ← int32
  let crc ← int32
  let magic ← int8
  let attributes ← int8
  let timestamp ← int64
  let key ← nullableBytes
  let value ← nullableBytes
  return { offset := offset, messageSize := size, crc := crc, magicByte := magic, attributes := attributes, timestamp := timestamp,
           key := key, value := value }

/-- A message set: its size in bytes, then messages up to that size. -/
def messageSet : Parse (List MessageV1) := do
  let b ← bytes
  match all message b.length b with
  | none => failure
  | some ms => return ms

/-- Partition, error code, high watermark and messages. -/
structure FetchedPartition where
  partition : I32
  errorCode : I16
  highWatermark : I64
  messages : List MessageV1
deriving DecidableEq, Repr

def fetch : Parse (I32 × List (Bytes × List FetchedPartition)) := do
  let throttle ← int32
  let topics ← array do
    let name ← str
    let ps ← array do
      let p ← int32
      let e ← int16
      let hw ← int64
      let ms ← messageSet
      return { partition := p, errorCode := e, highWatermark := hw, messages := ms }
    return (name, ps)
  return (throttle, topics)

def listOffsets : Parse ListOffsetsResponse := do
  let topics ← array do
    let name ← str
    let ps ← array do
      let p ← int32
      let e ← int16
      let t ← int64
      let o ← int64
      return { partitionIndex := p, errorCode := e, timestamp := t, offset := o }
    return { name := name, partitions := ps }
  return { topics := topics }

def commit : Parse CommitResponse := do
  let topics ← array do
    let name ← str
    let ps ← array do
      let p ← int32
      let e ← int16
      return { partitionIndex := p, errorCode := e }
    return { name := name, partitions := ps }
  return { topics := topics }

def offsetFetch : Parse OffsetFetchResponse := do
  let topics ← array do
    let name ← str
    let ps ← array do
      let p ← int32
      let o ← int64
      let m ← nullableStr
      let e ← int16
      return { partitionIndex := p, committedOffset := o, metadata := m, errorCode := e }
    return { name := name, partitions := ps }
  return { topics := topics }

def metadata : Parse MetaResponse := do
  let brokers ← array do
    let n ← int32
    let h ← str
    let p ← int32
    let r ← nullableStr
    return { nodeId := n, host := h, port := p, rack := r }
  let c ← int32
  let topics ← array do
    let e ← int16
    let n ← str
    let i ← bool
    let ps ← array do
      let e ← int16
      let p ← int32
      let l ← int32
      let rs ← array int32
      let isr ← array int32
      return { errorCode := e, partitionIndex := p, leaderId := l, replicas := rs, isr := isr }
    return { errorCode := e, name := n, isInternal := i, partitions := ps }
  return { brokers := brokers, controllerId := c, topics := topics }

def findCoordinator : Parse CoordinatorResponse := do
  let e ← int16
  let n ← int32
  let h ← str
  let p ← int32
  return { errorCode := e, nodeId := n, host := h, port := p }

def joinGroup : Parse JoinResponse := do
  let e ← int16
  let g ← int32
  let n ← str
  let l ← str
  let m ← str
  let ms ← array do
    let i ← str
    let d ← nullableBytes
    return (i, d)
  return { errorCode := e, generationId := g, protocolName := n, leader := l, memberId := m, members := ms }

/-- The member assignment of the consumer protocol: version, topics with their partitions, user data. -/
def assignment : Parse (I16 × List (Bytes × List I32) × Option Bytes) := do
  let v ← int16
  let ts ← array do
    let t ← str
    let ps ← array int32
    return (t, ps)
  let u ← nullableBytes
  return (v, ts, u)

/-- Error code and assignment, itself parsed to its end. -/
def syncGroup : Parse (I16 × I16 × List (Bytes × List I32) × Option Bytes) := do
  let e ← int16
  let b ← bytes
  match assignment b with
  | some (x, []) => return (e, x)
  | _ => failure

def errorCode : Parse I16 := int16

def apiVersions : Parse (I16 × List (I16 × I16 × I16)) := do
  let e ← int16
  let es ← array do
    let k ← int16
    let lo ← int16
    let hi ← int16
    return (k, lo, hi)
  return (e, es)

/-- A response: size, correlation id and a body of that size which is read to its end. -/
def response {α : Type} (body : Parse α) : Parse (I32 × α) := do
  let b ← bytes
  match (do let c ← int32; let x ← body; return (c, x) : Parse (I32 × α)) b with
  | some (r, []) => return r
  | _ => failure

end KM.Spec.Client
