import Verif.Handlers.Types
/- /repo/metadata.go, /repo/find_coordinator.go, /repo/join_group.go, /repo/sync_group.go, /repo/heartbeat.go, /repo/leave_group.go -/
namespace KM

/-- A Go string literal (ASCII) as bytes. -/
def lit (s : List Char) : Bytes := s.map fun c => UInt8.ofNat c.toNat

/-! ### Metadata -/

/-- /repo/metadata.go:8-10 -/
structure MetadataRequest where
  topics : List Bytes
deriving DecidableEq, Repr

@[reducible] def metadataRequestFields : Fields := fld "Topics" (.slice .string) .nil
/-- /repo/metadata.go:18-23 -/
@[reducible] def brokerFields : Fields := fld "NodeId" .int32 <| fld "Host" .string <| fld "Port" .int32 <| fld "Rack" .nullableString .nil
/-- /repo/metadata.go:32-38 -/
@[reducible] def metadataPartitionFields : Fields :=
  fld "ErrorCode" .int16 <| fld "PartitionIndex" .int32 <| fld "LeaderId" .int32 <| fld "ReplicaNodes" (.slice .int32) <|
  fld "IsrNodes" (.slice .int32) .nil
/-- /repo/metadata.go:25-30 -/
@[reducible] def metadataTopicFields : Fields :=
  fld "ErrorCode" .int16 <| fld "Name" .string <| fld "IsInternal" .bool <| fld "Partitions" (.slice (.struct metadataPartitionFields)) .nil
/-- /repo/metadata.go:12-16 -/
@[reducible] def metadataResponseTy : Ty := .ptr <| .struct <|
  fld "Brokers" (.slice (.struct brokerFields)) <| fld "ControllerId" .int32 <| fld "Topics" (.slice (.struct metadataTopicFields)) .nil

def MetadataRequest.ofDen : metadataRequestFields.den → MetadataRequest
  | (ts, ()) => { topics := ts.getD [] }

def MetadataRequest.toDen (q : MetadataRequest) : metadataRequestFields.den := (some q.topics, ())

/-- `kLeaderNode`, /repo/metadata.go:41 -/
def kLeaderNode : I32 := 100

/-- /repo/metadata.go:49-60; `serverPort` is a Go `uint`, converted with `int32(..)`. -/
def metadataResponse (serverPort : Nat) (q : MetadataRequest) : metadataResponseTy.den :=
  some (some [(kLeaderNode, lit ['l', 'o', 'c', 'a', 'l', 'h', 'o', 's', 't'], BitVec.ofNat 32 serverPort, none, ())], 500,
    some (q.topics.map fun t => (0, t, false, some [(0, 2, kLeaderNode, some [1], some [1], ())], ())), ())

/-- /repo/metadata.go:43-62 -/
def metadataV1 (serverPort : Nat) (r : Reader) : Prog HRes :=
  withRequest metadataRequestFields r fun v => .ret (some ⟨metadataResponseTy, metadataResponse serverPort (.ofDen v)⟩)

/-! ### FindCoordinator -/

/-- /repo/find_coordinator.go:8-10 -/
@[reducible] def findCoordinatorRequestFields : Fields := fld "Key" .string .nil
/-- /repo/find_coordinator.go:12-17 -/
@[reducible] def findCoordinatorResponseTy : Ty := .ptr <| .struct <|
  fld "ErrorCode" .int16 <| fld "NodeId" .int32 <| fld "Host" .string <| fld "Port" .int32 .nil

/-- /repo/find_coordinator.go:26-30 -/
def findCoordinatorResponse (serverPort : Nat) : findCoordinatorResponseTy.den :=
  some (0, kLeaderNode, lit ['l', 'o', 'c', 'a', 'l', 'h', 'o', 's', 't'], BitVec.ofNat 32 serverPort, ())

/-- /repo/find_coordinator.go:20-32 -/
def findCoordinatorV0 (serverPort : Nat) (r : Reader) : Prog HRes :=
  withRequest findCoordinatorRequestFields r fun _ => .ret (some ⟨findCoordinatorResponseTy, findCoordinatorResponse serverPort⟩)

/-! ### JoinGroup, Heartbeat, LeaveGroup -/

/-- /repo/join_group.go:8-20 -/
@[reducible] def joinGroupRequestFields : Fields :=
  fld "GroupId" .string <| fld "SessionTimeoutMs" .int32 <| fld "RebalanceTimeoutMs" .int32 <| fld "MemberId" .string <|
  fld "ProtocolType" .string <| fld "Protocols" (.slice (.struct (fld "Name" .string <| fld "Metadata" .bytes .nil))) .nil
/-- /repo/join_group.go:22-34 -/
@[reducible] def joinGroupResponseTy : Ty := .ptr <| .struct <|
  fld "ErrorCode" .int16 <| fld "GenerationId" .int32 <| fld "ProtocolName" .string <| fld "Leader" .string <| fld "MemberId" .string <|
  fld "Members" (.slice (.struct (fld "MemberId" .string <| fld "Metadata" .bytes .nil))) .nil

/-- /repo/join_group.go:43-50 -/
def joinGroupResponse : joinGroupResponseTy.den :=
  some (0, 0, lit ['r', 'o', 'u', 'n', 'd', 'r', 'o', 'b', 'i', 'n'], lit ['m', 'e'], lit ['1'], some [(lit ['y', 'o', 'u'], none, ())], ())

/-- /repo/join_group.go:37-52 -/
def joinGroupV1 (r : Reader) : Prog HRes :=
  withRequest joinGroupRequestFields r fun _ => .ret (some ⟨joinGroupResponseTy, joinGroupResponse⟩)

/-- /repo/heartbeat.go:8-12 -/
@[reducible] def heartbeatRequestFields : Fields := fld "GroupId" .string <| fld "GenerationId" .int32 <| fld "MemberId" .string .nil
/-- /repo/heartbeat.go:14-16 and /repo/leave_group.go:13-15 -/
@[reducible] def errorCodeResponseTy : Ty := .ptr <| .struct <| fld "ErrorCode" .int16 .nil

/-- /repo/heartbeat.go:19-27 -/
def heartbeatV0 (r : Reader) : Prog HRes :=
  withRequest heartbeatRequestFields r fun _ => .ret (some ⟨errorCodeResponseTy, some (0, ())⟩)

/-- /repo/leave_group.go:8-11 -/
@[reducible] def leaveGroupRequestFields : Fields := fld "GroupId" .string <| fld "MemberId" .string .nil

/-- /repo/leave_group.go:18-25 -/
def leaveGroupV0 (r : Reader) : Prog HRes :=
  withRequest leaveGroupRequestFields r fun _ => .ret (some ⟨errorCodeResponseTy, some (0, ())⟩)

/-! ### SyncGroup -/

/-- /repo/sync_group.go:10-20 -/
@[reducible] def syncGroupRequestFields : Fields :=
  fld "GroupId" .string <| fld "GenerationId" .int32 <| fld "MemberId" .string <|
  fld "Assignments" (.slice (.struct (fld "MemberID" .string <| fld "Assignments" .bytes .nil))) .nil
/-- /repo/sync_group.go:22-31 -/
@[reducible] def memberAssignmentTy : Ty := .struct <|
  fld "Version" .int16 <| fld "PartitionAssignments" (.slice (.struct (fld "Topic" .string <| fld "Partitions" (.slice .int32) .nil))) <|
  fld "UserData" .bytes .nil
/-- /repo/sync_group.go:33-36 -/
@[reducible] def syncGroupResponseTy : Ty := .ptr <| .struct <| fld "ErrorCode" .int16 <| fld "Assignments" .bytes .nil

/-- /repo/sync_group.go:68-71 -/
def memberAssignment (mpas : List (Bytes × List I32)) : memberAssignmentTy.den :=
  (1, some (mpas.map fun (t, ps) => (t, some ps, ())), none, ())

/-- /repo/sync_group.go:56-79. The two `range` statements read the maps without lock; each is modelled as one atomic read
of the keys present at that moment, in any order. (A Go map that is written during an unlocked iteration can also abort the
process, and an iteration may skip what is created
meanwhile; see `Ranges`, C100.) -/
def makeMemberAssignment : Prog Bytes :=
  .act .rangeTopics fun names =>
    (Prog.forEach (fun name => .act (.rangePartitions name) fun ps => .ret (name, ps)) names).bind fun mpas =>
      match encodeObject memberAssignmentTy (memberAssignment mpas) with
      | none => .panic
      | some b => .ret b

/-- /repo/sync_group.go:39-54. `buf.Bytes()` of a non-empty buffer is a non-nil slice. -/
def syncGroupV0 (r : Reader) : Prog HRes :=
  withRequest syncGroupRequestFields r fun
    | (_, _, _, assignments, ()) =>
      if (assignments.getD []).length ≠ 0 then .ret none
      else makeMemberAssignment.map fun b => some ⟨syncGroupResponseTy, some (0, some b, ())⟩

end KM
