import Verif.Props.Exactly
import Verif.Props.PollsCases
/-
Examples for C139.
-/
namespace KM.Props
open KM KM.Spec

/-- What goes wrong when two callers of SimplePost overlap (`C58_false`) goes wrong with mutexes as well: in memory the later timestamp comes first, and no mutex is locked any more. -/
example : ∃ (ft : List FEv) (F : Fine), Fine.Run (Fine.new ⟨9092, []⟩ 0) ft F ∧ (F.sys.api 0 matches .idle) ∧ (F.sys.api 1 matches .idle) ∧ (∀ k, F.mem.locks k = none) ∧
    (F.load.view 0).log [116] 0 = [⟨0, 5, none, some [2], []⟩, ⟨0, 0, none, some [1], []⟩] := by
  obtain ⟨tr, s, h1, h2, h3, _, h5⟩ := C58_false
  obtain ⟨ft, F, f1, _, rfl, f4⟩ := C139 h1
  exact ⟨ft, F, f1, h2, h3, f4, h5⟩

/-- A client that polls for ever (`poll_endless`), with mutexes: again and again the mock takes up a request of it, and there are as many moments as one likes at which no mutex is locked. -/
example : ∃ (fs : Nat → FineNet) (fe : Nat → FNEv), FineEndless ⟨9092, []⟩ 0 fs fe ∧ (∀ n, ∃ m, n ≤ m ∧ ∃ b, fe m = .mock (.sys (.conn 0 .recv (.data b)))) ∧
    ∀ n, ∃ m, n ≤ m ∧ ∀ k, (fs m).fine.mem.locks k = none := by
  obtain ⟨ns, es, h, _, _, _, _, _, _, h1, _⟩ := poll_endless
  obtain ⟨fs, fe, φ, f1, _, f2⟩ := C139_endless h
  have hφ : ∀ n, n ≤ φ n := fun n => by
    induction n with
    | zero => exact Nat.zero_le _
    | succ n ih => exact Nat.lt_of_le_of_lt ih (f2 n).1
  refine ⟨fs, fe, f1, fun n => ?_, fun n => ⟨φ n, hφ n, (f2 n).2.2.1⟩⟩
  obtain ⟨j, j1, _, j3, _⟩ := (f2 (46 + (18 * n + 3))).2.2.2
  obtain ⟨b, hb⟩ := poll_takes.2
  refine ⟨j, Nat.le_trans (by omega) (Nat.le_trans (hφ _) j1), b, ?_⟩
  rw [j3, h1 _ (by omega), show (46 + (18 * n + 3) - 46) % 18 = 3 by omega, hb]
  rfl

end KM.Props
