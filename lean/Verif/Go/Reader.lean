import Verif.Go.Bytes
/-
`bufio.Reader` as the code uses it: `bufio.NewReader(msg)` over a `bytes.Buffer`
(/repo/kafka-client.go:132), default buffer size 4096, accessed through `Peek` and `Discard` only.
Go standard library behaviour, trusted; read from the Go 1.21 sources of `bufio`.
-/
namespace KM

/-- A `bufio.Reader` over a `bytes.Buffer`: the bytes not yet discarded. Which part of them already
sits in the 4096-byte buffer is not observable through `Peek`/`Discard`. -/
structure Reader where
  rest : Bytes

/-- `bufio.defaultBufSize`. -/
def defaultBufSize : Nat := 4096

/-- `(*bufio.Reader).Peek(n)`: the data and whether the error is non-nil (`ErrBufferFull` or `io.EOF`). -/
def Reader.peek (r : Reader) (n : Nat) : Bytes × Bool :=
  if n > defaultBufSize then (r.rest.take defaultBufSize, true)
  else if r.rest.length < n then (r.rest, true)
  else (r.rest.take n, false)

/-- `(*bufio.Reader).Discard(n)`. -/
def Reader.discard (r : Reader) (n : Nat) : Reader := ⟨r.rest.drop n⟩

/-- The part of the unread data `Peek` can reach. -/
def Reader.window (r : Reader) : Bytes := r.rest.take defaultBufSize

theorem Reader.window_length (r : Reader) : r.window.length ≤ 4096 := by
  simp [Reader.window, defaultBufSize]; omega

theorem Reader.peek_eq (r : Reader) (n : Nat) :
    r.peek n = (r.window.take n, decide (r.window.length < n)) := by
  unfold Reader.peek Reader.window
  rw [List.length_take]
  by_cases h : n > defaultBufSize
  · rw [if_pos h, List.take_take, Nat.min_eq_right (by omega)]
    have : min defaultBufSize r.rest.length < n := by omega
    rw [decide_eq_true this]
  · rw [if_neg h]
    by_cases h2 : r.rest.length < n
    · rw [if_pos h2, List.take_of_length_le (by rw [List.length_take]; omega),
        List.take_of_length_le (by omega)]
      have : min defaultBufSize r.rest.length < n := by omega
      rw [decide_eq_true this]
    · rw [if_neg h2, List.take_take, Nat.min_eq_left (by omega)]
      have : ¬ min defaultBufSize r.rest.length < n := by omega
      rw [decide_eq_false this]

end KM
