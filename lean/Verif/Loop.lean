import Verif.Reach
/-
Runs of loops, cut into rounds.
-/
namespace KM

/-- `n` completed rounds of a loop. -/
inductive Rounds {σ β : Type} (body : σ → Prog (σ ⊕ β)) : World → σ → Nat → List Ev → World → σ → Prop where
  | nil (w : World) (s : σ) : Rounds body w s 0 [] w s
  | cons {w w1 w2 : World} {s s1 s2 : σ} {n : Nat} {t1 t2 : List Ev} (h : Exec w (body s) t1 w1 (.ret (.inl s1)))
      (hs : Rounds body w1 s1 n t2 w2 s2) : Rounds body w s (n + 1) (t1 ++ t2) w2 s2

section
variable {α σ β : Type} (body : σ → Prog (σ ⊕ β)) (k : β → Prog α)

/-- What follows a round. -/
def Prog.next : σ ⊕ β → Prog α
  | .inl s' => .loop s' body k
  | .inr b => k b

/-- A run of a loop: completed rounds, then a pause at the loop head, an unfinished round, or the last round and what follows. -/
def LoopRun (w : World) (s : σ) (tr : List Ev) (w' : World) (q : Prog α) : Prop :=
  ∃ n t1 w1 s1 t2, Rounds body w s n t1 w1 s1 ∧ tr = t1 ++ t2 ∧
    ((q = .loop s1 body k ∧ EnvSteps w1 t2 w') ∨ (∃ x, Exec w1 (body s1) t2 w' x ∧ q = x.bind (Prog.next body k)) ∨
     ∃ b t3 t4 w2, t2 = t3 ++ t4 ∧ Exec w1 (body s1) t3 w2 (.ret (.inr b)) ∧ Exec w2 (k b) t4 w' q)

variable {body k}

theorem LoopRun.env {w w1 w' : World} {s : σ} {tr : List Ev} {q : Prog α} {a : Act} {r : a.Resp} (hst : a.step w r w1)
    (h : LoopRun body k w1 s tr w' q) : LoopRun body k w s (⟨false, a, r⟩ :: tr) w' q := by
  obtain ⟨n, t1, w2, s1, t2, hr, rfl, h⟩ := h
  cases hr with
  | nil =>
    rcases h with ⟨h1, h2⟩ | ⟨x, h1, h2⟩ | ⟨b, t3, t4, w2, rfl, h1, h2⟩
    · exact ⟨0, [], w, s, _, .nil _ _, rfl, .inl ⟨h1, .cons hst h2⟩⟩
    · exact ⟨0, [], w, s, _, .nil _ _, rfl, .inr (.inl ⟨x, .env a r hst h1, h2⟩)⟩
    · exact ⟨0, [], w, s, _, .nil _ _, rfl, .inr (.inr ⟨b, _ :: t3, t4, w2, rfl, .env a r hst h1, h2⟩)⟩
  | @cons _ w3 _ _ s3 _ n t3 t4 h1 hs => exact ⟨n + 1, ⟨false, a, r⟩ :: t3 ++ t4, w2, s1, t2, .cons (.env a r hst h1) hs, by simp, h⟩

/-- Every run of a loop is a `LoopRun`. -/
theorem exec_loop_inv {w w' : World} {s : σ} {tr : List Ev} {q : Prog α} (h : Exec w (.loop s body k) tr w' q) :
    LoopRun body k w s tr w' q := by
  have key : ∀ {w : World} {p : Prog α} {tr : List Ev} {w' : World} {q : Prog α}, Exec w p tr w' q →
      (∀ x : Prog (σ ⊕ β), p = x.bind (Prog.next body k) →
        (∃ x', Exec w x tr w' x' ∧ q = x'.bind (Prog.next body k)) ∨
        (∃ s1 t1 w1 t2, tr = t1 ++ t2 ∧ Exec w x t1 w1 (.ret (.inl s1)) ∧ LoopRun body k w1 s1 t2 w' q) ∨
        (∃ b t1 w1 t2, tr = t1 ++ t2 ∧ Exec w x t1 w1 (.ret (.inr b)) ∧ Exec w1 (k b) t2 w' q)) ∧
      (∀ s, p = .loop s body k → LoopRun body k w s tr w' q) := by
    intro w p tr w' q h
    induction h with
    | refl w p =>
      refine ⟨fun x hx => .inl ⟨x, .refl _ _, hx⟩, fun s hs => ⟨0, [], w, s, [], .nil _ _, rfl, .inl ⟨hs, .nil _⟩⟩⟩
    | env a r hst _ ih =>
      refine ⟨fun x hx => ?_, fun s hs => (ih.2 s hs).env hst⟩
      rcases ih.1 x hx with ⟨x', h1, h2⟩ | ⟨s1, t1, w1, t2, rfl, h1, h2⟩ | ⟨b, t1, w1, t2, rfl, h1, h2⟩
      · exact .inl ⟨x', .env a r hst h1, h2⟩
      · exact .inr (.inl ⟨s1, _ :: t1, w1, t2, rfl, .env a r hst h1, h2⟩)
      · exact .inr (.inr ⟨b, _ :: t1, w1, t2, rfl, .env a r hst h1, h2⟩)
    | mine a k' r hst hs ih =>
      refine ⟨fun x hx => ?_, fun s hs => by cases hs⟩
      cases x with
      | ret v =>
        cases v with
        | inl s => cases hx
        | inr b =>
          have hx : Prog.act a k' = k b := hx
          refine .inr (.inr ⟨b, [], _, _, rfl, .refl _ _, ?_⟩)
          rw [← hx]; exact .mine a k' r hst hs
      | panic => cases hx
      | act a' k'' =>
        simp only [Prog.bind_act] at hx
        cases hx
        rcases ih.1 _ rfl with ⟨x', h1, h2⟩ | ⟨s1, t1, w1, t2, rfl, h1, h2⟩ | ⟨b, t1, w1, t2, rfl, h1, h2⟩
        · exact .inl ⟨x', .mine a k'' r hst h1, h2⟩
        · exact .inr (.inl ⟨s1, _ :: t1, w1, t2, rfl, .mine a k'' r hst h1, h2⟩)
        · exact .inr (.inr ⟨b, _ :: t1, w1, t2, rfl, .mine a k'' r hst h1, h2⟩)
      | loop => cases hx
    | @unroll w w2 σ' β' s' body' k' p' tr hs ih =>
      have hB : ∀ s, Prog.loop s' body' k' = .loop s body k → LoopRun body k w s tr w2 p' := by
        intro s e
        cases e
        have e2 : Prog.unroll s body k = (body s).bind (Prog.next body k) := by
          rfl
        rcases ih.1 _ e2 with ⟨x', h1, h2⟩ | ⟨s1, t1, w1, t2, rfl, h1, n, t3, w3, s3, t4, h2, rfl, h3⟩ | ⟨b, t1, w1, t2, rfl, h1, h2⟩
        · exact ⟨0, [], w, s, _, .nil _ _, rfl, .inr (.inl ⟨x', h1, h2⟩)⟩
        · exact ⟨n + 1, t1 ++ t3, w3, s3, t4, .cons h1 h2, by simp, h3⟩
        · exact ⟨0, [], w, s, _, .nil _ _, rfl, .inr (.inr ⟨b, t1, t2, w1, rfl, h1, h2⟩)⟩
      refine ⟨fun x hx => ?_, hB⟩
      cases x with
      | ret v =>
        cases v with
        | inl s => exact .inr (.inl ⟨s, [], w, tr, rfl, .refl _ _, hB s hx⟩)
        | inr b =>
          have hx : Prog.loop s' body' k' = k b := hx
          refine .inr (.inr ⟨b, [], _, _, rfl, .refl _ _, ?_⟩)
          rw [← hx]; exact .unroll hs
      | panic => cases hx
      | act => cases hx
      | loop s2 body2 k2 =>
        simp only [Prog.bind_loop] at hx
        cases hx
        have e : (Prog.unroll s' body' k2).bind (Prog.next body k) = Prog.unroll s' body' fun b => (k2 b).bind (Prog.next body k) := by
          unfold Prog.unroll
          rw [Prog.bind_assoc]
          congr; funext x; cases x <;> rfl
        rcases ih.1 _ e.symm with ⟨x', h1, h2⟩ | ⟨s1, t1, w1, t2, rfl, h1, h2⟩ | ⟨b, t1, w1, t2, rfl, h1, h2⟩
        · exact .inl ⟨x', .unroll h1, h2⟩
        · exact .inr (.inl ⟨s1, t1, w1, t2, rfl, .unroll h1, h2⟩)
        · exact .inr (.inr ⟨b, t1, w1, t2, rfl, .unroll h1, h2⟩)
  exact (key h).2 s rfl

/-- A finished run of a loop: completed rounds, a last round, and what follows. -/
theorem exec_loop_ret {w w' : World} {s : σ} {tr : List Ev} {u : α} (h : Exec w (.loop s body k) tr w' (.ret u)) :
    ∃ n t1 w1 s1 t2 b w2 t3, Rounds body w s n t1 w1 s1 ∧ Exec w1 (body s1) t2 w2 (.ret (.inr b)) ∧ Exec w2 (k b) t3 w' (.ret u) ∧
      tr = t1 ++ t2 ++ t3 := by
  obtain ⟨n, t1, w1, s1, t2, hr, rfl, hl⟩ := exec_loop_inv h
  rcases hl with ⟨h1, _⟩ | ⟨x, h1, h2⟩ | ⟨b, t3, t4, w2, rfl, h1, h2⟩
  · cases h1
  · cases x with
    | ret v =>
      cases v with
      | inl s => cases h2
      | inr b =>
        have h2 : Prog.ret u = k b := h2
        exact ⟨n, t1, w1, s1, t2, b, w', [], hr, h1, by rw [← h2]; exact .refl _ _, by simp⟩
    | panic => cases h2
    | act => cases h2
    | loop => cases h2
  · exact ⟨n, t1, w1, s1, t3, b, w2, t4, hr, h1, h2, by simp⟩

/-- A crashed run of a loop: in some round, or after it. -/
theorem exec_loop_panic {w w' : World} {s : σ} {tr : List Ev} (h : Exec w (.loop s body k) tr w' .panic) :
    ∃ n t1 w1 s1 t2, Rounds body w s n t1 w1 s1 ∧ tr = t1 ++ t2 ∧
      (Exec w1 (body s1) t2 w' .panic ∨ ∃ b t3 t4 w2, t2 = t3 ++ t4 ∧ Exec w1 (body s1) t3 w2 (.ret (.inr b)) ∧ Exec w2 (k b) t4 w' .panic) := by
  obtain ⟨n, t1, w1, s1, t2, hr, rfl, hl⟩ := exec_loop_inv h
  refine ⟨n, t1, w1, s1, t2, hr, rfl, ?_⟩
  rcases hl with ⟨h1, _⟩ | ⟨x, h1, h2⟩ | ⟨b, t3, t4, w2, rfl, h1, h2⟩
  · cases h1
  · cases x with
    | ret v =>
      cases v with
      | inl s => cases h2
      | inr b =>
        have h2 : Prog.panic = k b := h2
        exact .inr ⟨b, t2, [], w', by simp, h1, by rw [← h2]; exact .refl _ _⟩
    | panic => exact .inl h1
    | act => cases h2
    | loop => cases h2
  · exact .inr ⟨b, t3, t4, w2, rfl, h1, h2⟩

theorem Rounds.steps {w w' : World} {s s' : σ} {n : Nat} {tr : List Ev} (h : Rounds body w s n tr w' s') : Steps w tr w' := by
  induction h with
  | nil => exact .nil _
  | cons h _ ih => exact h.steps.append ih

/-- Rounds keep an invariant that each round keeps. -/
theorem Rounds.inv {I : World → σ → Prop} (hI : ∀ {w w1 : World} {s s1 : σ} {t : List Ev}, I w s → Exec w (body s) t w1 (.ret (.inl s1)) → I w1 s1)
    {w w' : World} {s s' : σ} {n : Nat} {tr : List Ev} (h : Rounds body w s n tr w' s') (h0 : I w s) : I w' s' := by
  induction h with
  | nil => exact h0
  | cons h _ ih => exact ih (hI h0 h)

end
end KM
