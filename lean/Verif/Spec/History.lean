/-
Specification of the data the mock holds, as functions of the history of effects. Does not refer to the model.
-/
namespace KM.Spec

/-- The effects an observer distinguishes: a record is posted, a consumer group commits an offset, a test
resets a group's offset. `T` topics, `P` partition numbers, `G` groups, `R` records. -/
inductive Effect (T P G R : Type) where
  | post (t : T) (p : P) (r : R)
  | commit (t : T) (p : P) (g : G) (o : Int)
  | reset (t : T) (p : P) (g : G) (o : Int)

variable {T P G R : Type} [DecidableEq T] [DecidableEq P] [DecidableEq G]

/-- The records posted to a partition, in order. -/
def posts (h : List (Effect T P G R)) (t : T) (p : P) : List R :=
  match h with
  | [] => []
  | .post t' p' r :: h => if t' = t ∧ p' = p then r :: posts h t p else posts h t p
  | _ :: h => posts h t p

/-- The committed offset of a group after a history, starting from `cur`: a commit raises it, a reset sets it. -/
def committedFrom (cur : Int) (h : List (Effect T P G R)) (t : T) (p : P) (g : G) : Int :=
  match h with
  | [] => cur
  | .post _ _ _ :: h => committedFrom cur h t p g
  | .commit t' p' g' o :: h => committedFrom (if t' = t ∧ p' = p ∧ g' = g then max cur o else cur) h t p g
  | .reset t' p' g' o :: h => committedFrom (if t' = t ∧ p' = p ∧ g' = g then o else cur) h t p g

/-- The committed offset of a group after a history from the start: 0 for a group that never committed. -/
def committed (h : List (Effect T P G R)) (t : T) (p : P) (g : G) : Int := committedFrom 0 h t p g

end KM.Spec
