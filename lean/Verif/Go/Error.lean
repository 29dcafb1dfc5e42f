import Verif.Prog
/-
Go error values, `errors.Is`, and the classification of read and accept errors.
-/
namespace KM

/-- A non-nil Go error value, as far as `errors.Is` and type assertions can tell. -/
inductive GoErr where
  /-- `io.EOF` -/
  | eof
  /-- `net.ErrClosed` -/
  | netClosed
  /-- `os.ErrDeadlineExceeded` -/
  | deadline
  /-- `syscall.Errno`; its `Is` method recognises none of the errors looked for here -/
  | errno (n : Nat)
  /-- `*os.SyscallError`; `none`: its field `Err` is nil -/
  | sysErr (inner : Option GoErr)
  /-- `*net.OpError`; `none`: its field `Err` is nil -/
  | opErr (inner : Option GoErr)
  /-- any other error value: what its `Is` method answers for `io.EOF`, `net.ErrClosed` and `os.ErrDeadlineExceeded` (false if it has none), and
  what its `Unwrap` method returns (nothing if it has none; one error; or several, as for `errors.Join`) -/
  | other (isEof isClosed isDeadline : Bool) (inner : List GoErr)

namespace GoErr

/-- The sentinel errors looked for. -/
inductive Target where
  | eof
  | netClosed
  | deadline
deriving DecidableEq, Repr

mutual
/-- `errors.Is(err, target)`: the error itself, or its `Is` method, or an error it unwraps to. -/
def is (t : Target) : GoErr → Bool
  | .eof => t == .eof
  | .netClosed => t == .netClosed
  | .deadline => t == .deadline
  | .errno _ => false
  | .sysErr none => false
  | .sysErr (some e) => e.is t
  | .opErr none => false
  | .opErr (some e) => e.is t
  | .other e c d inner =>
    (match t with
      | .eof => e
      | .netClosed => c
      | .deadline => d) || isAny t inner
def isAny (t : Target) : List GoErr → Bool
  | [] => false
  | e :: es => e.is t || isAny t es
end

/-- `syscall.ECONNRESET` (on Linux) -/
def econnreset : Nat := 104

/-- `wasSocketClosed`, /repo/net-utils.go:11-29. -/
def wasSocketClosed (err : GoErr) : Bool :=
  if err.is .eof || err.is .netClosed then true
  else match err with
    | .opErr (some (.sysErr (some (.errno n)))) => n == econnreset
    | _ => false

/-- What the handler makes of the result of `conn.Read`, /repo/kafka-client.go:109-117: bytes, or an error (bytes returned together with
an error are dropped, line 109). -/
def readOutcome : Except GoErr Bytes → RecvResult
  | .ok b => .data b
  | .error err => if err.is .deadline then .timeout else if err.wasSocketClosed then .closed else .failed

end GoErr
end KM
