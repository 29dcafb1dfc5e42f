import Verif.Codec.Decode
import Verif.Codec.Encode
import Verif.Codec.Tags
import Verif.Prog
/-
Wire types of the eleven request handlers, and `readRequest`.
The `*Fields` constants are the Go struct types the reflective codec works on. No field of these types carries
a `kafka:"..."` tag.
-/
namespace KM

/-- A struct field without tag. -/
@[reducible] def fld (name : String) (t : Ty) (rest : Fields) : Fields := .cons name [] t rest

/-- Outcome of `readRequest`. -/
inductive ReadRes (α : Type) where
  | err
  | panic
  | ok (v : α) (r : Reader)

/-- /repo/inbound-utils.go:35-50. A nil interface fails the type assertion of line 42. -/
def readRequest (fs : Fields) (r : Reader) : ReadRes fs.den :=
  match peekObject (.struct fs) r 0 with
  | .short => .err
  | .panic => .panic
  | .ok _ none => .panic
  | .ok next (some v) => .ok v (r.discard next)

/-- What a `dispatchHandler` returns: an error, or a response value (with its Go type) and the reader
positioned after what it consumed. `rtags` is nil in all handlers. -/
inductive HRes where
  | err
  | ok (resp : Dyn) (r : Reader)

/-- The common frame of the handlers: read the request, then compute the response (`none` = error). -/
def withRequest (fs : Fields) (r : Reader) (k : fs.den → Prog (Option Dyn)) : Prog HRes :=
  match readRequest fs r with
  | .err => .ret .err
  | .panic => .panic
  | .ok v r' => (k v).bind fun
    | none => .ret .err
    | some d => .ret (.ok d r')

/-- `for _, x := range xs { ... }` collecting one result per element. -/
def Prog.forEach {α β : Type} (f : α → Prog β) : List α → Prog (List β)
  | [] => .ret []
  | x :: xs => (f x).bind fun y => (Prog.forEach f xs).bind fun ys => .ret (y :: ys)

end KM
