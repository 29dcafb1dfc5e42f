import Verif.Go.Reader
/-
Outcome of the `peek*` functions of /repo/decoder.go. They return `(next, value)` with `next < 0` for
"not enough data"; a Go panic is the third outcome.
-/
namespace KM

/-- Result of a `peek*` function: `short` is `next = -1`. -/
inductive Res (α : Type) where
  | short
  | panic
  | ok (next : Nat) (v : α)
deriving DecidableEq, Repr

namespace Res

/-- `next, v := f(...); if next < 0 { return }; ...` — the idiom of every `peek*` function. -/
def bind {α β : Type} (x : Res α) (f : Nat → α → Res β) : Res β :=
  match x with
  | short => short
  | panic => panic
  | ok n v => f n v

def map {α β : Type} (f : α → β) (x : Res α) : Res β := x.bind fun n v => ok n (f v)

@[simp] theorem bind_short {α β : Type} (f : Nat → α → Res β) : (short : Res α).bind f = short := rfl
@[simp] theorem bind_panic {α β : Type} (f : Nat → α → Res β) : (panic : Res α).bind f = panic := rfl
@[simp] theorem bind_ok {α β : Type} (n : Nat) (v : α) (f : Nat → α → Res β) :
    (ok n v).bind f = f n v := rfl
@[simp] theorem map_short {α β : Type} (f : α → β) : (short : Res α).map f = short := rfl
@[simp] theorem map_panic {α β : Type} (f : α → β) : (panic : Res α).map f = panic := rfl
@[simp] theorem map_ok {α β : Type} (n : Nat) (v : α) (f : α → β) : (ok n v).map f = ok n (f v) := rfl

end Res

/-- A decoding function started at offset `off` is *local*: a successful result ends inside the
window, at or after the start, and is the same on every reader that agrees on the consumed bytes; a
panic stays a panic when more data arrives. (Proof tool; the property theorem C03 spells this out.) -/
structure Local {α : Type} (off : Nat) (f : Reader → Res α) : Prop where
  ge : ∀ r n v, f r = .ok n v → off ≤ n
  le : ∀ r n v, f r = .ok n v → off ≤ r.window.length → n ≤ r.window.length
  ok : ∀ r n v, f r = .ok n v → ∀ r' : Reader, r'.window.take n = r.window.take n → f r' = .ok n v
  panic : ∀ r, f r = .panic → off ≤ r.window.length → ∀ r' : Reader, r.window <+: r'.window → f r' = .panic

theorem take_eq_length {w w' : Bytes} {n : Nat} (h : w'.take n = w.take n) (hn : n ≤ w.length) :
    n ≤ w'.length := by
  have := congrArg List.length h
  rw [List.length_take, List.length_take] at this
  omega

theorem take_eq_le {w w' : Bytes} {n m : Nat} (h : w'.take n = w.take n) (hm : m ≤ n) :
    w'.take m = w.take m := by
  have := congrArg (List.take m) h
  rwa [List.take_take, List.take_take, Nat.min_eq_left hm] at this

theorem prefix_take_eq {w w' : Bytes} {n : Nat} (h : w <+: w') (hn : n ≤ w.length) :
    w'.take n = w.take n := by
  obtain ⟨t, rfl⟩ := h
  rw [List.take_append_of_le_length hn]

theorem Local.bind {α β : Type} {off : Nat} {f : Reader → Res α} {g : Reader → Nat → α → Res β}
    (hf : Local off f) (hg : ∀ n v, off ≤ n → Local n (fun r => g r n v)) :
    Local off (fun r => (f r).bind (g r)) where
  ge := by
    intro r n v h
    cases hr : f r with
    | short => simp [hr] at h
    | panic => simp [hr] at h
    | ok m u =>
      simp only [hr, Res.bind_ok] at h
      have h1 := hf.ge r m u hr
      have h2 := (hg m u h1).ge r n v h
      omega
  le := by
    intro r n v h hof
    cases hr : f r with
    | short => simp [hr] at h
    | panic => simp [hr] at h
    | ok m u =>
      simp only [hr, Res.bind_ok] at h
      exact (hg m u (hf.ge r m u hr)).le r n v h (hf.le r m u hr hof)
  ok := by
    intro r n v h r' hw
    cases hr : f r with
    | short => simp [hr] at h
    | panic => simp [hr] at h
    | ok m u =>
      simp only [hr, Res.bind_ok] at h
      have h1 := hf.ge r m u hr
      have h2 := (hg m u h1).ge r n v h
      have := hf.ok r m u hr r' (take_eq_le hw h2)
      simp only [this, Res.bind_ok]
      exact (hg m u h1).ok r n v h r' hw
  panic := by
    intro r h hof r' hw
    cases hr : f r with
    | short => simp [hr] at h
    | panic => simp [hf.panic r hr hof r' hw]
    | ok m u =>
      simp only [hr, Res.bind_ok] at h
      have h1 := hf.ge r m u hr
      have := hf.ok r m u hr r' (prefix_take_eq hw (hf.le r m u hr hof))
      simp only [this, Res.bind_ok]
      exact (hg m u h1).panic r h (hf.le r m u hr hof) r' hw

theorem Local.pure {α : Type} (off : Nat) (v : α) : Local off (fun _ => Res.ok off v) where
  ge := by intro r n v' h; cases h; omega
  le := by intro r n v' h; cases h; exact id
  ok := by intro r n v' h r' _; exact h
  panic := by intro r h; cases h

theorem Local.const_panic {α : Type} (off : Nat) : Local off (fun _ => (Res.panic : Res α)) where
  ge := by intro r n v' h; cases h
  le := by intro r n v' h; cases h
  ok := by intro r n v' h r' _; exact h
  panic := by intro r h _ r' _; exact h

theorem Local.map {α β : Type} {off : Nat} {f : Reader → Res α} (hf : Local off f) (g : α → β) :
    Local off (fun r => (f r).map g) where
  ge := by
    intro r n v h
    cases hr : f r with
    | short => simp [hr] at h
    | panic => simp [hr] at h
    | ok m u =>
      simp only [hr, Res.map_ok, Res.ok.injEq] at h
      have := hf.ge r m u hr
      omega
  le := by
    intro r n v h hof
    cases hr : f r with
    | short => simp [hr] at h
    | panic => simp [hr] at h
    | ok m u =>
      simp only [hr, Res.map_ok, Res.ok.injEq] at h
      have := hf.le r m u hr hof
      omega
  ok := by
    intro r n v h r' hw
    cases hr : f r with
    | short => simp [hr] at h
    | panic => simp [hr] at h
    | ok m u =>
      simp only [hr, Res.map_ok, Res.ok.injEq] at h
      obtain ⟨rfl, rfl⟩ := h
      simp [hf.ok r m u hr r' hw]
  panic := by
    intro r h hof r' hw
    cases hr : f r with
    | short => simp [hr] at h
    | panic => simp [hf.panic r hr hof r' hw]
    | ok m u => simp [hr] at h

end KM
