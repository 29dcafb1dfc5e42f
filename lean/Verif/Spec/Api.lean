import Verif.ApiTable
/-
The APIs the mock serves: api key, version, and the function that serves it. The numbers are those of the Kafka protocol
(https://kafka.apache.org/protocol: Fetch is 1, ListOffsets is 2, ...).
-/
namespace KM.Spec

/-- The eleven supported (api key, version) pairs. -/
def supported : List (Int × Int × Api) :=
  [(1, 2, .fetch), (2, 1, .listOffsets), (3, 1, .metadata), (8, 2, .offsetCommit), (9, 1, .offsetFetch), (10, 0, .findCoordinator),
   (11, 1, .joinGroup), (12, 0, .heartbeat), (13, 0, .leaveGroup), (14, 0, .syncGroup), (18, 0, .apiVersions)]

/-- The function that serves a pair. -/
def serves (key version : Int) : Option Api := (supported.find? fun e => e.1 == key && e.2.1 == version).map fun e => e.2.2

end KM.Spec
