import Verif.ApiTable
/- The dispatcher and the connection loop, /repo/kafka-client.go, with /repo/inbound-utils.go and /repo/kafka-message.go. -/
namespace KM

/-- `kafkaHeader0`, /repo/kafka-client.go:46-50 -/
@[reducible] def headerFields : Fields := fld "RequestApiKey" .int16 <| fld "RequestApiVersion" .int16 <| fld "CorrelationId" .int32 .nil

/-- Result of `dispatcher`: an error (which makes the connection goroutine panic) or nil. -/
inductive DRes where
  | err
  | done
deriving DecidableEq, Repr

/-- The result of `isConnected`, /repo/kafka-client.go:249-258: no descriptor means not connected; otherwise it is `err != nil` for the error of
`recvfrom`, which is nil when there is a byte to read and at the end of the stream. -/
def Probe.connected : Probe → Bool
  | .noFile | .byte | .eof => false
  | .again | .error => true

/-- What the dispatcher does after a failed write, /repo/kafka-client.go:238-243. -/
def sendFailed : Prog DRes := .act .isConnected fun p => .ret (if p.connected then .err else .done)

/-- The size prefix and correlation id written by `send`, /repo/kafka-message.go:29-44. -/
def responseSize (payload : Bytes) : Bytes := encodeInt32 (BitVec.ofNat 32 (4 + payload.length))

/-- `send`, /repo/kafka-message.go:28-55, and the error handling of /repo/kafka-client.go:238-244. -/
def send (correlationId : I32) (payload : Bytes) : Prog DRes :=
  .act (.write (responseSize payload)) fun ok1 =>
    if ok1 then
      .act (.write (encodeInt32 correlationId)) fun ok2 =>
        if ok2 then .act (.write payload) fun ok3 => if ok3 then .ret .done else sendFailed
        else sendFailed
    else sendFailed

/-- The part of the dispatcher after the handler has returned, /repo/kafka-client.go:219-246. `Peek(msgLength)` returns what is
left of the message (up to the buffer size). -/
def finish (msgLength : Nat) (correlationId : I32) : HRes → Prog DRes
  | .err => .ret .err
  | .ok resp r =>
    if (r.peek msgLength).1.length ≠ 0 then .ret .err
    else match encodeObject resp.1 resp.2 with
      | none => .panic
      | some payload => send correlationId payload

/-- /repo/kafka-client.go:164-247. `apiHasTags` is an empty map (/repo/api-keys.go:91), so lines 188-197 read no tags. -/
def dispatcher (sv : Server) (r : Reader) (msgLength : Nat) : Prog DRes :=
  match peekObject (.struct headerFields) r 0 with
  | .short => .ret .err
  | .panic => .panic
  | .ok next hdr =>
    let (apiKey, version, correlationId, ()) := hdr.getD (0, 0, 0, ())
    match peekString r next with
    | .short => .ret .err
    | .panic => .panic
    | .ok next _ =>
      match GoMap.get apiTable (makeApiKey apiKey.toInt version.toInt) with
      | none => .ret .err
      | some api => (api.handler sv (r.discard next)).bind (finish msgLength correlationId)

/-- Result of `getMessage`. -/
inductive Msg where
  | none
  | panic
  | ready (b : Bytes)
deriving DecidableEq, Repr

/-- /repo/inbound-utils.go:21-33. The upper slice bound `4+msgSize` is computed in `uint32` and wraps for sizes from 2^32-4. -/
def getMessage (inbound : Bytes) : Msg :=
  if inbound.length < 4 then .none
  else
    let msgSize := getBE (inbound.take 4)
    if inbound.length < msgSize + 4 then .none
    else
      let hi := (4 + msgSize) % 2 ^ 32
      if hi < 4 then .panic else .ready ((inbound.take hi).drop 4)

/-- One round of the loop of /repo/kafka-client.go:88-139; the state is `kc.inbound`. The latency hook (lines 89-91) is zero
outside the repository's own tests. A panic ends the process; `Fall.lean` has what other goroutines may still do while it unwinds. -/
def handleBody (sv : Server) (inbound : Bytes) : Prog (Bytes ⊕ Unit) :=
  match getMessage inbound with
  | .panic => .panic
  | .none =>
    .act .isDone fun d =>
      if d then .act .close fun _ => .ret (.inr ())
      else .act .recv fun
        | .timeout => .ret (.inl inbound)
        | .closed => .ret (.inr ())
        | .failed => .panic
        | .data b => .act .isStopping fun s => .ret (.inl (if s then inbound else inbound ++ b))
  | .ready msg =>
    .act (.reqBegin msg) fun _ =>
      (dispatcher sv ⟨msg⟩ msg.length).bind fun res =>
        .act .reqEnd fun _ =>
          match res with
          | .err => .panic
          | .done => .ret (.inl (inbound.drop (4 + msg.length)))

/-- `handle`, /repo/kafka-client.go:78-140 (wait-group bookkeeping is in `Verif/Lifecycle.lean`). -/
def handle (sv : Server) : Prog Unit := .loop ([] : Bytes) (handleBody sv) .ret

end KM
