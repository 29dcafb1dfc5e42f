import Verif.Prog
/- The functions tests call on the mock, /repo/kafka-mock.go:96-106, 181-200, on the shared store. -/
namespace KM

/-- `int32(partition)` of a Go `int` -/
def int32 (n : Int) : I32 := BitVec.ofInt 32 n

/-- `t.UnixMilli()` of a time given in nanoseconds. -/
def milli (ns : Int) : I64 := BitVec.ofInt 64 (ns / 1000000)

/-- /repo/kafka-mock.go:96-100; `time.Now()` is read before `postRecord` takes the lock. -/
def simplePost (topic : Bytes) (partition : Int) (key value : Option Bytes) : Prog Unit :=
  .act (.createTopic topic) fun _ =>
    .act (.createPartition topic (int32 partition)) fun _ =>
      .act .now fun t =>
        .act (.post topic (int32 partition) { attributes := 0, timestamp := milli t, key := key, value := value, headers := [] }) fun _ =>
          .ret ()

/-- /repo/kafka-mock.go:102-106; the header map is flattened in iteration order (/repo/datastore.go:106-109). -/
def extendedPost (topic : Bytes) (partition : Int) (key value : Option Bytes) (headers : List (Bytes × Option Bytes)) (timestamp : Int) : Prog Unit :=
  .act (.createTopic topic) fun _ =>
    .act (.createPartition topic (int32 partition)) fun _ =>
      .act (.orderHeaders headers) fun hs =>
        .act (.post topic (int32 partition) { attributes := 0, timestamp := milli timestamp, key := key, value := value, headers := hs }) fun _ =>
          .ret ()

/-- /repo/kafka-mock.go:181-186 -/
def createPartitionTopics (partition : Int) : List Bytes → Prog Unit
  | [] => .ret ()
  | topic :: topics =>
    .act (.createTopic topic) fun _ => .act (.createPartition topic (int32 partition)) fun _ => createPartitionTopics partition topics

/-- /repo/kafka-mock.go:189-200 -/
def setConsumerGroupOffset (topic : Bytes) (partition : Int) (group : Bytes) (offset : I64) : Prog Unit :=
  .act (.getTopic topic) fun kt =>
    if kt then
      .act (.getPartition topic (int32 partition)) fun kp =>
        if kp then .act (.setOffset topic (int32 partition) group offset) fun _ => .ret () else .ret ()
    else .ret ()

end KM
