import Verif.Only
/-
A program's own actions, separated from those of the environment.
-/
namespace KM

/-- An action with its result. -/
structure REv where
  act : Act
  resp : act.Resp

/-- The program's own events of a run. -/
def own (tr : List Ev) : List REv := (tr.filter (·.mine)).map fun e => ⟨e.act, e.resp⟩

/-- The environment's events of a run. -/
def others (tr : List Ev) : List Ev := tr.filter fun e => !e.mine

/-- The program can go from `p` to `p'` performing these actions with these results. -/
inductive Own {α : Type} : Prog α → List REv → Prog α → Prop where
  | refl (p : Prog α) : Own p [] p
  | act (a : Act) (k : a.Resp → Prog α) (r : a.Resp) {l : List REv} {p' : Prog α} (h : Own (k r) l p') : Own (.act a k) (⟨a, r⟩ :: l) p'
  | unroll {σ β : Type} {s : σ} {body : σ → Prog (σ ⊕ β)} {k : β → Prog α} {l : List REv} {p' : Prog α}
      (h : Own (Prog.unroll s body k) l p') : Own (.loop s body k) l p'

@[simp] theorem own_nil : own [] = [] := rfl
@[simp] theorem own_mine (a : Act) (r : a.Resp) (tr : List Ev) : own (⟨true, a, r⟩ :: tr) = ⟨a, r⟩ :: own tr := rfl
@[simp] theorem own_env (a : Act) (r : a.Resp) (tr : List Ev) : own (⟨false, a, r⟩ :: tr) = own tr := rfl
theorem own_append (a b : List Ev) : own (a ++ b) = own a ++ own b := by simp [own]
@[simp] theorem others_nil : others [] = [] := rfl
@[simp] theorem others_mine (a : Act) (r : a.Resp) (tr : List Ev) : others (⟨true, a, r⟩ :: tr) = others tr := rfl
@[simp] theorem others_env (a : Act) (r : a.Resp) (tr : List Ev) : others (⟨false, a, r⟩ :: tr) = ⟨false, a, r⟩ :: others tr := rfl
theorem others_append (a b : List Ev) : others (a ++ b) = others a ++ others b := by simp [others]

theorem own_of_env {tr : List Ev} (h : ∀ e ∈ tr, e.mine = false) : own tr = [] := by
  have : tr.filter (·.mine) = [] := List.filter_eq_nil_iff.2 fun e he => by simp [h e he]
  simp [own, this]

theorem mem_own {tr : List Ev} {e : REv} : e ∈ own tr ↔ (⟨true, e.act, e.resp⟩ : Ev) ∈ tr := by
  constructor
  · intro h
    obtain ⟨x, hx, rfl⟩ := List.mem_map.1 h
    obtain ⟨h1, h2⟩ := List.mem_filter.1 hx
    obtain ⟨m, a, r⟩ := x
    simp only at h2
    subst h2; exact h1
  · intro h
    exact List.mem_map.2 ⟨_, List.mem_filter.2 ⟨h, rfl⟩, rfl⟩

/-- An own event splits the run. -/
theorem own_split {tr : List Ev} {l1 l2 : List REv} {e : REv} (h : own tr = l1 ++ e :: l2) :
    ∃ t1 t2, tr = t1 ++ ⟨true, e.act, e.resp⟩ :: t2 ∧ own t1 = l1 ∧ own t2 = l2 := by
  induction tr generalizing l1 with
  | nil => cases l1 <;> cases h
  | cons x tr ih =>
    obtain ⟨m, a, r⟩ := x
    cases m with
    | false =>
      rw [own_env] at h
      obtain ⟨t1, t2, rfl, h1, h2⟩ := ih h
      exact ⟨⟨false, a, r⟩ :: t1, t2, rfl, by rw [own_env, h1], h2⟩
    | true =>
      rw [own_mine] at h
      cases l1 with
      | nil =>
        cases h
        exact ⟨[], tr, rfl, rfl, rfl⟩
      | cons y l1 =>
        simp only [List.cons_append, List.cons.injEq] at h
        obtain ⟨rfl, h⟩ := h
        obtain ⟨t1, t2, rfl, h1, h2⟩ := ih h
        exact ⟨⟨true, a, r⟩ :: t1, t2, rfl, by rw [own_mine, h1], h2⟩

theorem Exec.own {α : Type} {w w' : World} {p p' : Prog α} {tr : List Ev} (h : Exec w p tr w' p') : Own p (KM.own tr) p' := by
  induction h with
  | refl => exact .refl _
  | env a r _ _ ih => exact ih
  | mine a k r _ _ ih => exact .act a k r ih
  | unroll _ ih => exact .unroll ih

theorem own_ret_inv {α : Type} {v : α} {l : List REv} {q : Prog α} (h : Own (.ret v) l q) : q = .ret v ∧ l = [] := by
  cases h; exact ⟨rfl, rfl⟩

theorem own_panic_inv {α : Type} {l : List REv} {q : Prog α} (h : Own (.panic : Prog α) l q) : q = .panic ∧ l = [] := by
  cases h; exact ⟨rfl, rfl⟩

theorem own_act_inv {α : Type} {a : Act} {k : a.Resp → Prog α} {l : List REv} {q : Prog α} (h : Own (.act a k) l q) :
    (q = .act a k ∧ l = []) ∨ ∃ r l', l = ⟨a, r⟩ :: l' ∧ Own (k r) l' q := by
  cases h with
  | refl => exact .inl ⟨rfl, rfl⟩
  | act _ _ r h => exact .inr ⟨r, _, rfl, h⟩

theorem own_bind_inv {α β : Type} {p : Prog α} {f : α → Prog β} {q : Prog β} {l : List REv} (h : Own (p.bind f) l q) :
    (∃ p', Own p l p' ∧ q = p'.bind f) ∨ ∃ l1 l2 v, Own p l1 (.ret v) ∧ Own (f v) l2 q ∧ l = l1 ++ l2 := by
  generalize hp : p.bind f = pb at h
  induction h generalizing p with
  | refl => exact .inl ⟨p, .refl _, hp.symm⟩
  | act a k r h ih =>
    cases p with
    | ret v => simp only [Prog.bind_ret] at hp; exact .inr ⟨[], _, v, .refl _, by rw [hp]; exact .act a k r h, rfl⟩
    | panic => cases hp
    | act a' k' =>
      simp only [Prog.bind_act] at hp
      cases hp
      rcases ih rfl with ⟨p', h1, h2⟩ | ⟨l1, l2, v, h1, h2, rfl⟩
      · exact .inl ⟨p', .act a k' r h1, h2⟩
      · exact .inr ⟨_ :: l1, l2, v, .act a k' r h1, h2, rfl⟩
    | loop => cases hp
  | @unroll σ β' s body k l p' hs ih =>
    cases p with
    | ret v => simp only [Prog.bind_ret] at hp; exact .inr ⟨[], _, v, .refl _, by rw [hp]; exact .unroll hs, rfl⟩
    | panic => cases hp
    | act => cases hp
    | loop s' body' k' =>
      simp only [Prog.bind_loop] at hp
      cases hp
      have e : (Prog.unroll s body k').bind f = Prog.unroll s body fun b => (k' b).bind f := by
        unfold Prog.unroll
        rw [Prog.bind_assoc]
        congr; funext x; cases x <;> rfl
      rcases ih e with ⟨p', h1, h2⟩ | ⟨l1, l2, v, h1, h2, rfl⟩
      · exact .inl ⟨p', .unroll h1, h2⟩
      · exact .inr ⟨l1, l2, v, .unroll h1, h2, rfl⟩

/-- A finished run of a sequence is two finished runs. -/
theorem own_bind_ret {α β : Type} {p : Prog α} {f : α → Prog β} {u : β} {l : List REv} (h : Own (p.bind f) l (.ret u)) :
    ∃ l1 l2 v, Own p l1 (.ret v) ∧ Own (f v) l2 (.ret u) ∧ l = l1 ++ l2 := by
  rcases own_bind_inv h with ⟨p', h1, h2⟩ | h
  · cases p' with
    | ret v => exact ⟨l, [], v, h1, by rw [Prog.bind_ret] at h2; rw [← h2]; exact .refl _, by simp⟩
    | panic => cases h2
    | act => cases h2
    | loop => cases h2
  · exact h

theorem own_map_ret {α β : Type} {p : Prog α} {f : α → β} {u : β} {l : List REv} (h : Own (p.map f) l (.ret u)) :
    ∃ v, Own p l (.ret v) ∧ u = f v := by
  obtain ⟨l1, l2, v, h1, h2, rfl⟩ := own_bind_ret h
  obtain ⟨h2, rfl⟩ := own_ret_inv h2
  cases h2
  exact ⟨v, by simpa using h1, rfl⟩

theorem own_act_ret {α : Type} {a : Act} {k : a.Resp → Prog α} {l : List REv} {u : α} (h : Own (.act a k) l (.ret u)) :
    ∃ r l', l = ⟨a, r⟩ :: l' ∧ Own (k r) l' (.ret u) := by
  rcases own_act_inv h with ⟨h, _⟩ | h
  · cases h
  · exact h

/-- Finished runs of a sequence, with the world in between. -/
theorem exec_bind_ret {α β : Type} {w w' : World} {p : Prog α} {f : α → Prog β} {u : β} {tr : List Ev} (h : Exec w (p.bind f) tr w' (.ret u)) :
    ∃ t1 t2 w1 v, Exec w p t1 w1 (.ret v) ∧ Exec w1 (f v) t2 w' (.ret u) ∧ tr = t1 ++ t2 := by
  rcases exec_bind_inv h with ⟨p', h1, h2⟩ | h
  · cases p' with
    | ret v => exact ⟨tr, [], w', v, h1, by rw [Prog.bind_ret] at h2; rw [← h2]; exact .refl _ _, by simp⟩
    | panic => cases h2
    | act => cases h2
    | loop => cases h2
  · exact h

theorem exec_map_ret {α β : Type} {w w' : World} {p : Prog α} {f : α → β} {u : β} {tr : List Ev} (h : Exec w (p.map f) tr w' (.ret u)) :
    ∃ v, Exec w p tr w' (.ret v) ∧ u = f v := by
  obtain ⟨t1, t2, w1, v, h1, h2, rfl⟩ := exec_bind_ret h
  obtain ⟨e, h3⟩ := exec_ret_inv h2
  cases e
  exact ⟨v, h1.trans (h3.exec _), rfl⟩

theorem exec_act_ret {α : Type} {w w' : World} {a : Act} {k : a.Resp → Prog α} {u : α} {tr : List Ev} (h : Exec w (.act a k) tr w' (.ret u)) :
    ∃ t1 w1 r w2 t2, EnvSteps w t1 w1 ∧ a.step w1 r w2 ∧ Exec w2 (k r) t2 w' (.ret u) ∧ tr = t1 ++ ⟨true, a, r⟩ :: t2 := by
  rcases exec_act_inv h with ⟨h, _⟩ | h
  · cases h
  · exact h

/-! ### Effects of own and other events -/

theorem posts_others {tr : List Ev} {t : Bytes} {p : I32} (h : ∀ e ∈ tr, e.mine = true → ∀ r, e.act ≠ .post t p r) :
    Spec.posts (effects tr) t p = Spec.posts (effects (others tr)) t p := by
  induction tr with
  | nil => rfl
  | cons e tr ih =>
    have ih := ih fun e he => h e (List.mem_cons_of_mem _ he)
    obtain ⟨m, a, r⟩ := e
    rw [effects_cons, Spec.posts_append, ih]
    cases m with
    | false => rw [others_env, effects_cons, Spec.posts_append]
    | true =>
      rw [others_mine]
      have : Spec.posts a.effect.toList t p = [] := by
        have h := h ⟨true, a, r⟩ (List.mem_cons_self ..) rfl
        cases a <;> try rfl
        case post t' p' rec _ =>
          simp only [Act.effect, Option.toList_some, Spec.posts]
          by_cases e : t' = t ∧ p' = p
          · obtain ⟨rfl, rfl⟩ := e; exact absurd rfl (h rec)
          · rw [if_neg e]
      simp [this]

theorem committed_others {tr : List Ev} {t : Bytes} {p : I32} {g : Bytes}
    (h : ∀ e ∈ tr, e.mine = true → (∀ o, e.act ≠ .commit t p g o) ∧ ∀ o, e.act ≠ .setOffset t p g o) (c : Int) :
    Spec.committedFrom c (effects tr) t p g = Spec.committedFrom c (effects (others tr)) t p g := by
  induction tr generalizing c with
  | nil => rfl
  | cons e tr ih =>
    have ih := ih fun e he => h e (List.mem_cons_of_mem _ he)
    obtain ⟨m, a, r⟩ := e
    rw [effects_cons, Spec.committedFrom_append, ih]
    cases m with
    | false => rw [others_env, effects_cons, Spec.committedFrom_append]
    | true =>
      rw [others_mine]
      have : Spec.committedFrom c a.effect.toList t p g = c := by
        have h := h ⟨true, a, r⟩ (List.mem_cons_self ..) rfl
        cases a <;> try rfl
        case commit t' p' g' o _ =>
          simp only [Act.effect, Option.toList_some, Spec.committedFrom]
          by_cases e : t' = t ∧ p' = p ∧ g' = g
          · obtain ⟨rfl, rfl, rfl⟩ := e; exact absurd rfl (h.1 o)
          · rw [if_neg e]
        case setOffset t' p' g' o _ =>
          simp only [Act.effect, Option.toList_some, Spec.committedFrom]
          by_cases e : t' = t ∧ p' = p ∧ g' = g
          · obtain ⟨rfl, rfl, rfl⟩ := e; exact absurd rfl (h.2 o)
          · rw [if_neg e]
      rw [this]

end KM
