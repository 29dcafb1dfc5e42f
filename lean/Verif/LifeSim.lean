import Verif.LifeInv
/-
A deterministic scheduler for the whole mock, used only to exhibit concrete runs; every run it computes is a run in the sense of `Sys.Run`.
-/
namespace KM

/-- A schedule entry. -/
inductive Pick where
  /-- a caller acts; if it is idle it makes the given call -/
  | api (i : Nat) (c : Call)
  | run (g : Nat)
  /-- a connection acts (with the default result of the action) -/
  | conn (c : Nat)
  /-- a connection's read has the given result -/
  | recv (c : Nat) (r : RecvResult)
  /-- a connection's write fails -/
  | lost (c : Nat)
  /-- a connection's probe for the client has the given result -/
  | probe (c : Nat) (p : Probe)

def RecvResult.ok : RecvResult → Bool
  | .data b => b ≠ [] ∧ b.length ≤ 8192
  | _ => true

namespace Sys

def liveConn (s : Sys) (c : Nat) : Option (SEv × Sys) :=
  match s.conns[c]? with
  | none => none
  | some k =>
    match k.pc with
    | .body (.act a f) =>
      match a.exec1 (s.view k.ctx) with
      | none => none
      | some (r, w) => some (.conn c a r, (s.setView k.ctx w).setConn c { k with pc := .body (f r) })
    | .body (.loop x body f) => some (.unroll c, s.setConn c { k with pc := .body (Prog.unroll x body f) })
    | _ =>
      match s.connStep c with
      | .ok s' => some (.life (.conn c), s')
      | _ => none

def pick (s : Sys) : Pick → Option (SEv × Sys)
  | .api i c =>
    match s.api i with
    | .call (.act a f) =>
      match a.exec1 (s.view 0) with
      | none => none
      | some (r, w) => some (.call i a r, ({ s with ds := w.ds, clock := w.clock } : Sys).setApi i (.call (f r)))
    | _ =>
      match s.apiStep i c with
      | .ok s' => some (.life (.api i c), s')
      | _ => none
  | .run g =>
    match s.runStep g true with
    | .ok s' => some (.life (.run g true), s')
    | _ => none
  | .conn c => s.liveConn c
  | .recv c r =>
    match s.conns[c]? with
    | none => none
    | some k =>
      match k.pc with
      | .body (.act .recv f) => if r.ok then some (.conn c .recv r, (s.setView k.ctx (s.view k.ctx)).setConn c { k with pc := .body (f r) }) else none
      | _ => none
  | .lost c =>
    match s.conns[c]? with
    | none => none
    | some k =>
      match k.pc with
      | .body (.act (.write b) f) => some (.conn c (.write b) false, (s.setView k.ctx (s.view k.ctx)).setConn c { k with pc := .body (f false) })
      | _ => none
  | .probe c p =>
    match s.conns[c]? with
    | none => none
    | some k =>
      match k.pc with
      | .body (.act .isConnected f) => some (.conn c .isConnected p, (s.setView k.ctx (s.view k.ctx)).setConn c { k with pc := .body (f p) })
      | _ => none

def play : (ps : List Pick) → Sys → Option (List SEv × Sys)
  | [], s => some ([], s)
  | p :: ps, s =>
    match s.pick p with
    | none => none
    | some (e, s1) =>
      match play ps s1 with
      | none => none
      | some (es, s2) => some (e :: es, s2)

theorem Run.append {s s1 s2 : Sys} {a b : List SEv} (h1 : Run s a s1) (h2 : Run s1 b s2) : Run s (a ++ b) s2 := by
  induction h1 with
  | nil => exact h2
  | cons h _ ih => exact .cons h (ih h2)

theorem pick_sound {s s' : Sys} {p : Pick} {e : SEv} (h : s.pick p = some (e, s')) : Step s e s' := by
  cases p with
  | api i c =>
    unfold pick at h
    dsimp only at h
    split at h
    · next a f hp =>
      split at h
      · cases h
      · next r w hw => cases h; exact (.call hp (Act.exec1_sound hw))
    · split at h
      · next s1 hs => cases h; exact (.life hs)
      · cases h
  | run g =>
    unfold pick at h
    dsimp only at h
    split at h
    · next s1 hs => cases h; exact (.life hs)
    · cases h
  | conn c =>
    unfold pick at h
    dsimp only at h
    unfold liveConn at h
    split at h
    · cases h
    · next k hk =>
      split at h
      · next a f hp =>
        split at h
        · cases h
        · next r w hw => cases h; exact (.conn hk hp (Act.exec1_sound hw))
      · next x body f hp => cases h; exact (.unroll hk hp)
      · split at h
        · next s1 hs => cases h; exact (.life hs)
        · cases h
  | recv c r =>
    unfold pick at h
    dsimp only at h
    split at h
    · cases h
    · next k hk =>
      split at h
      · next f hp =>
        split at h
        · next hr =>
          cases h
          refine .conn hk hp ⟨rfl, fun b hb => ?_⟩
          subst hb
          simpa [RecvResult.ok] using hr
        · cases h
      · cases h
  | lost c =>
    unfold pick at h
    dsimp only at h
    split at h
    · cases h
    · next k hk =>
      split at h
      · next b f hp => cases h; exact .conn hk hp rfl
      · cases h
  | probe c p =>
    unfold pick at h
    dsimp only at h
    split at h
    · cases h
    · next k hk =>
      split at h
      · next f hp => cases h; exact .conn hk hp rfl
      · cases h

theorem play_sound {ps : List Pick} {s s' : Sys} {e : List SEv} (h : play ps s = some (e, s')) : Run s e s' := by
  induction ps generalizing s e with
  | nil => cases h; exact .nil _
  | cons p ps ih =>
    unfold play at h
    split at h
    · cases h
    · next e1 s1 h1 =>
      split at h
      · cases h
      · next e2 s2 h2 => cases h; exact .cons (pick_sound h1) (ih h2)

end Sys
end KM
