import Verif.Lifecycle
/-
What the exported functions that start and stop the mock do, as a table: in which of four modes the mock is, and what a call does in each of them. Refers to the model of the code only for the names of the
functions and of the panics.
-/
namespace KM.Spec

/-- `new`: not started yet. `up`: started, no stop requested since. `stopping`: a stop was requested since the last Start, and goroutines of the mock may still be at work. `down`: so, and they are not. -/
inductive Mode where
  | new
  | up
  | stopping
  | down

/-- What comes of a call: it returns, or panics, and leaves the mock in a mode; or it does not return. -/
inductive Outcome where
  | returns (μ : Mode)
  | panics (why : Panic) (μ : Mode)
  | never

/-- The table. A mock that is stopping can be started again once its last goroutine has let go of it; that is why Start has two lines for `stopping`. -/
inductive Does : Mode → Call → Outcome → Prop where
  | start {μ : Mode} (h : μ ≠ .up) : Does μ .start (.returns .up)
  | startTwice {μ : Mode} (h : μ = .up ∨ μ = .stopping) : Does μ .start (.panics .startTwice μ)
  | stop : Does .up .requestStop (.returns .stopping)
  | stopAgain {μ : Mode} (h : μ ≠ .up) : Does μ .requestStop (.returns μ)
  | waitNew : Does .new .waitForTermination (.returns .new)
  | waitUp : Does .up .waitForTermination .never
  | wait {μ : Mode} (h : μ = .stopping ∨ μ = .down) : Does μ .waitForTermination (.returns .down)
  | restart {μ : Mode} : Does μ .restart (.returns .up)
  | finish {μ : Mode} (h : μ ≠ .new) : Does μ .finishRequests (.returns μ)
  | finishNew : Does .new .finishRequests (.panics .nilCancel .new)

end KM.Spec
