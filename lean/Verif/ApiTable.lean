import Verif.Handlers.Fetch
import Verif.Handlers.Offsets
import Verif.Handlers.Group
/- /repo/api-keys.go and /repo/api_versions.go -/
namespace KM

/-- A decimal digit. -/
def digitChar (d : Nat) : Char := Char.ofNat (48 + d)

/-- The last digits of `n`, most significant first, at most `fuel + 1` of them. -/
def digitsAux : (fuel : Nat) → Nat → List Char
  | 0, n => [digitChar (n % 10)]
  | fuel + 1, n => if n < 10 then [digitChar n] else digitsAux fuel (n / 10) ++ [digitChar (n % 10)]

/-- Decimal digits of a natural number (`%d`). -/
def digits (n : Nat) : List Char := digitsAux n n

/-- `fmt.Sprintf("%d", n)` -/
def fmtInt (n : Int) : List Char := if n < 0 then '-' :: digits n.natAbs else digits n.natAbs

/-- `makeApiKey`, /repo/api-keys.go:168-170 -/
def makeApiKey (apiKey version : Int) : List Char := fmtInt apiKey ++ '.' :: fmtInt version

/-- `strconv.Atoi` on a string of digits with optional minus sign (the only strings it is applied to). -/
def atoi : List Char → Int
  | '-' :: cs => -(cs.foldl (fun (a : Nat) c => a * 10 + (c.toNat - 48)) 0 : Nat)
  | cs => (cs.foldl (fun (a : Nat) c => a * 10 + (c.toNat - 48)) 0 : Nat)

/-- The handler functions the dispatch table refers to. -/
inductive Api where
  | metadata | findCoordinator | offsetFetch | joinGroup | syncGroup | leaveGroup | apiVersions | heartbeat
  | listOffsets | fetch | offsetCommit
deriving DecidableEq, Repr

/-- /repo/api-keys.go:180-192 with the constants of lines 17-87. -/
def apiTable : List (List Char × Api) :=
  [(makeApiKey 3 1, .metadata), (makeApiKey 10 0, .findCoordinator), (makeApiKey 9 1, .offsetFetch),
   (makeApiKey 11 1, .joinGroup), (makeApiKey 14 0, .syncGroup), (makeApiKey 13 0, .leaveGroup),
   (makeApiKey 18 0, .apiVersions), (makeApiKey 12 0, .heartbeat), (makeApiKey 2 1, .listOffsets),
   (makeApiKey 1 2, .fetch), (makeApiKey 8 2, .offsetCommit)]

/-- `versionRange`, /repo/api-keys.go:11-14 -/
structure VersionRange where
  min : I16
  max : I16
deriving DecidableEq, Repr

/-- One round of the loop of /repo/api-keys.go:196-213. In the `else` branch (lines 206-211) the local copy `vr` is
changed but not stored back, so the map stays as it is. -/
def initVersion (versions : List (Int × VersionRange)) (keyVer : List Char) : List (Int × VersionRange) :=
  let key := atoi (keyVer.takeWhile (· ≠ '.'))
  let ver := atoi ((keyVer.dropWhile (· ≠ '.')).drop 1)
  match GoMap.get versions key with
  | none => GoMap.set versions key { min := BitVec.ofInt 16 ver, max := BitVec.ofInt 16 ver }
  | some _ => versions

/-- `apiVersions` after `initializeApis`, when `range apiTable` visits the keys in the given order. -/
def initVersions (order : List (List Char)) : List (Int × VersionRange) := order.foldl initVersion []

/-- /repo/api_versions.go:14-18 -/
structure ApiKeyEntry where
  apiKey : I16
  minVersion : I16
  maxVersion : I16
deriving DecidableEq, Repr

/-- /repo/api_versions.go:9-12 -/
@[reducible] def apiVersionsResponseTy : Ty := .struct <| fld "ErrorCode" .int16 <|
  fld "ApiKeys" (.slice (.struct (fld "ApiKey" .int16 <| fld "MinVersion" .int16 <| fld "MaxVersion" .int16 .nil))) .nil

/-- /repo/api_versions.go:22-39, with `range apiVersions` visiting the keys in the given order. -/
def apiVersionsList (versions : List (Int × VersionRange)) (order : List Int) : List ApiKeyEntry :=
  let keys := order.filter fun k => match GoMap.get versions k with
    | some vr => vr.min.toInt > -2
    | none => false
  (keys.mergeSort (· ≤ ·)).map fun k =>
    let vr := (GoMap.get versions k).getD { min := 0, max := 0 }
    if vr.min ≠ -1 then { apiKey := BitVec.ofInt 16 k, minVersion := vr.min, maxVersion := vr.max }
    else { apiKey := BitVec.ofInt 16 k, minVersion := 0, maxVersion := 0 }

def apiVersionsDen (l : List ApiKeyEntry) : apiVersionsResponseTy.den :=
  (0, some (l.map fun e => (e.apiKey, e.minVersion, e.maxVersion, ())), ())

/-- /repo/api_versions.go:21-43; the request body is not read. -/
def apiVersionsV0 (versions : List (Int × VersionRange)) (r : Reader) : Prog HRes :=
  .act (.orderInt (GoMap.keys versions)) fun order => .ret (.ok ⟨apiVersionsResponseTy, apiVersionsDen (apiVersionsList versions order)⟩ r)

/-- What the handlers know about the server: its port, and the global `apiVersions` map. -/
structure Server where
  port : Nat
  versions : List (Int × VersionRange)

/-- The function a table entry refers to, /repo/api-keys.go:180-192. -/
def Api.handler (sv : Server) : Api → Reader → Prog HRes
  | .metadata => metadataV1 sv.port
  | .findCoordinator => findCoordinatorV0 sv.port
  | .offsetFetch => offsetFetchV1
  | .joinGroup => joinGroupV1
  | .syncGroup => syncGroupV0
  | .leaveGroup => leaveGroupV0
  | .apiVersions => apiVersionsV0 sv.versions
  | .heartbeat => heartbeatV0
  | .listOffsets => listOffsetsV1
  | .fetch => fetchV2
  | .offsetCommit => offsetCommitV2

end KM
