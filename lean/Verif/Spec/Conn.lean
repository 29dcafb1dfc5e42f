import Verif.Spec.Wire
import Verif.Trace
/-
What can be observed of one connection: the bytes the server has taken from it, the requests it has started to process,
and the bytes it has written. Independent of the connection loop and of the codec.
-/
namespace KM.Spec

/-- The complete size-prefixed messages at the start of a byte stream (at most `fuel` of them). -/
def framesN : (fuel : Nat) → Bytes → List Bytes
  | 0, _ => []
  | fuel + 1, s =>
    if 4 ≤ s.length ∧ 4 + be (s.take 4) ≤ s.length then (s.drop 4).take (be (s.take 4)) :: framesN fuel (s.drop (4 + be (s.take 4)))
    else []

/-- The complete size-prefixed messages at the start of a byte stream: a message is a four-byte big-endian size and that many bytes.
An incomplete message at the end is left out. -/
def frames (s : Bytes) : List Bytes := framesN s.length s

/-- The bytes taken from the connection: those of each successful read, unless the connection was found to be closing right after it. -/
def received : List REv → Bytes
  | ⟨.recv, .data b⟩ :: ⟨.isStopping, false⟩ :: l => b ++ received l
  | _ :: l => received l
  | [] => []

/-- The requests whose processing has begun, in order. -/
def served : List REv → List Bytes
  | ⟨.reqBegin m, _⟩ :: l => m :: served l
  | _ :: l => served l
  | [] => []

/-- The number of requests whose processing has ended. -/
def ended : List REv → Nat
  | ⟨.reqEnd, _⟩ :: l => ended l + 1
  | _ :: l => ended l
  | [] => 0

/-- The bytes of the successful writes. -/
def sent : List REv → Bytes
  | ⟨.write b, true⟩ :: l => b ++ sent l
  | _ :: l => sent l
  | [] => []

/-- No write failed. -/
def AllSent (l : List REv) : Prop := ∀ b, (⟨.write b, false⟩ : REv) ∉ l

/-- Every block written is small enough for a response size below 2^32. -/
def Small (l : List REv) : Prop := ∀ b ok, (⟨.write b, ok⟩ : REv) ∈ l → b.length + 4 < 2 ^ 32

/-- The stream is the concatenation of the given messages, each after a four-byte big-endian size: the number of bytes that follow. -/
inductive Framed : Bytes → List Bytes → Prop where
  | nil : Framed [] []
  | cons {size m s : Bytes} {ms : List Bytes} (hs : size.length = 4) (hm : be size = m.length) (h : Framed s ms) :
      Framed (size ++ m ++ s) (m :: ms)

/-- The four bytes at which a request has its correlation id: after api key and api version. -/
def requestCorrelation (m : Bytes) : Bytes := (m.drop 4).take 4

/-- The four bytes at which a response has its correlation id: at its start. -/
def responseCorrelation (m : Bytes) : Bytes := m.take 4

end KM.Spec
