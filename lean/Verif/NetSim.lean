import Verif.Net
import Verif.LifeSim
/-
Runs of the mock with its clients, computed: a schedule says what acts next.
-/
namespace KM
open Spec Props

/-- The choice of what acts next. -/
inductive NPick where
  | mock (p : Pick)
  | send (c : Nat) (b : Bytes)
  /-- the client receives `k` bytes -/
  | receive (c k : Nat)

/-- What a step does to the connections (a failing write sends nothing). -/
def carry : SEv → (Nat → Link) → Option (Nat → Link)
  | .conn c .recv (.data b), L => if b ≠ [] ∧ b.length ≤ 8192 ∧ b = (L c).up.take b.length then some (setLink L c { L c with up := (L c).up.drop b.length }) else none
  | .conn c (.write b) true, L => if (L c).broken = false then some (setLink L c { L c with down := (L c).down ++ b }) else none
  | .conn c (.write b) false, L => if (L c).broken = true then some L else if b = [] then none else some (setLink L c { L c with broken := true })
  | .conn _ .isStopping r, L => if r = false then some L else none
  | _, L => some L

theorem carry_sound {e : SEv} {L L' : Nat → Link} (h : carry e L = some L') : Carries e L L' := by
  unfold carry at h
  split at h
  · next c b =>
    split at h
    · next h1 =>
      cases h
      refine ⟨h1.1, h1.2.1, _, ?_, rfl⟩
      have := List.take_append_drop b.length (L c).up
      rw [← h1.2.2] at this
      exact this.symm
    · cases h
  · split at h
    · next h1 => cases h; exact ⟨h1, rfl⟩
    · cases h
  · next c b =>
    split at h
    · next h1 => cases h; exact .inl ⟨h1, rfl⟩
    · next h1 =>
      split at h
      · cases h
      · next h2 => cases h; exact .inr ⟨by simpa using h1, [], b, rfl, h2, by simp⟩
  · split at h
    · next h1 => cases h; exact ⟨h1, rfl⟩
    · cases h
  · cases h
    unfold Carries
    split <;> simp_all

def Net.pick (n : Net) : NPick → Option (NEv × Net)
  | .mock p =>
    match n.sys.pick p with
    | none => none
    | some (e, s) => (carry e n.links).map fun L => (.mock e, ⟨s, L⟩)
  | .send c b => some (.send c b, { n with links := setLink n.links c { n.links c with up := (n.links c).up ++ b } })
  | .receive c k => some (.receive c ((n.links c).down.take k), { n with links := setLink n.links c { n.links c with down := (n.links c).down.drop k } })

theorem Net.pick_sound {n n' : Net} {p : NPick} {e : NEv} (h : n.pick p = some (e, n')) : Net.Step n e n' := by
  cases p with
  | mock p =>
    unfold Net.pick at h
    dsimp only at h
    split at h
    · cases h
    · next e' s hp =>
      obtain ⟨L, h1, h2⟩ := Option.map_eq_some_iff.1 h
      cases h2
      exact .mock (Sys.pick_sound hp) (carry_sound h1)
  | send c b => cases h; exact .send c b
  | receive c k => cases h; exact .receive (List.take_append_drop k _).symm

def Net.play : (ps : List NPick) → Net → Option (List NEv × Net)
  | [], n => some ([], n)
  | p :: ps, n =>
    match n.pick p with
    | none => none
    | some (e, n1) =>
      match play ps n1 with
      | none => none
      | some (es, n2) => some (e :: es, n2)

theorem Net.play_sound {ps : List NPick} {n n' : Net} {tr : List NEv} (h : Net.play ps n = some (tr, n')) : Net.Run n tr n' := by
  induction ps generalizing n tr with
  | nil => cases h; exact .nil _
  | cons p ps ih =>
    unfold Net.play at h
    split at h
    · cases h
    · next e n1 hp =>
      split at h
      · cases h
      · next es n2 hq => cases h; exact .cons (Net.pick_sound hp) (ih hq)

/-- The events of a schedule, and the state after it. -/
def netEvents (ps : List NPick) (n : Net) : List NEv := ((Net.play ps n).map Prod.fst).getD []
def netAfter (ps : List NPick) (n : Net) : Net := ((Net.play ps n).map Prod.snd).getD n

theorem netAfter_run (ps : List NPick) (n : Net) : Net.Run n (netEvents ps n) (netAfter ps n) := by
  unfold netEvents netAfter
  cases h : Net.play ps n with
  | none => exact .nil _
  | some x => exact Net.play_sound h

end KM
