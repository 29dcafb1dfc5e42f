import Verif.Loop
/-
Upper bounds on what a program without loops can do.
-/
namespace KM

/-- As long as the results of its actions satisfy `ok`, the program's actions cost at most `n` in total (it has no loops), and its result
satisfies `Q`. -/
def Prog.Cost (c : Act → Nat) (ok : (a : Act) → a.Resp → Prop) : {α : Type} → (α → Prop) → Nat → Prog α → Prop
  | _, Q, _, .ret v => Q v
  | _, _, _, .panic => True
  | _, Q, n, .act a k => c a ≤ n ∧ ∀ r, ok a r → Prog.Cost c ok Q (n - c a) (k r)
  | _, _, _, .loop _ _ _ => False

/-- No condition on results. -/
def anyResp : (a : Act) → a.Resp → Prop := fun _ _ => True

/-- Total cost of a list of actions. -/
def cost (c : Act → Nat) (l : List REv) : Nat := (l.map fun e => c e.act).sum

theorem cost_append (c : Act → Nat) (a b : List REv) : cost c (a ++ b) = cost c a + cost c b := by simp [cost]
theorem cost_cons (c : Act → Nat) (a : Act) (r : a.Resp) (l : List REv) : cost c (⟨a, r⟩ :: l) = c a + cost c l := by simp [cost]
@[simp] theorem cost_nil (c : Act → Nat) : cost c [] = 0 := rfl

theorem cost_one (l : List REv) : cost (fun _ => 1) l = l.length := by
  induction l with
  | nil => rfl
  | cons x l ih => simp only [cost, List.map_cons, List.sum_cons, List.length_cons] at *; omega

namespace Prog.Cost
variable {c : Act → Nat} {ok : (a : Act) → a.Resp → Prop} {α β : Type}

theorem mono {Q Q' : α → Prop} {n m : Nat} {p : Prog α} (h : p.Cost c ok Q n) (hm : n ≤ m) (hQ : ∀ v, Q v → Q' v) : p.Cost c ok Q' m := by
  induction p generalizing n m with
  | ret v => exact hQ v h
  | panic => trivial
  | act a k ih => exact ⟨Nat.le_trans h.1 hm, fun r hr => ih r (h.2 r hr) (by omega) hQ⟩
  | loop => exact h.elim

theorem bind {Q : α → Prop} {Q' : β → Prop} {n m : Nat} {p : Prog α} {f : α → Prog β} (hp : p.Cost c ok Q n)
    (hf : ∀ v, Q v → (f v).Cost c ok Q' m) : (p.bind f).Cost c ok Q' (n + m) := by
  induction p generalizing n with
  | ret v => exact (hf v hp).mono (by omega) fun _ h => h
  | panic => trivial
  | act a k ih =>
    refine ⟨by have := hp.1; omega, fun r hr => (ih r (hp.2 r hr) hf).mono ?_ fun _ h => h⟩
    have := hp.1; omega
  | loop => exact hp.elim

theorem map {Q : α → Prop} {Q' : β → Prop} {n : Nat} {p : Prog α} (f : α → β) (hp : p.Cost c ok Q n) (hf : ∀ v, Q v → Q' (f v)) :
    (p.map f).Cost c ok Q' n := hp.bind (m := 0) hf

/-- With costs depending on the element. -/
theorem forEach {g : α → Nat} {f : α → Prog β} (xs : List α) (hf : ∀ x, (f x).Cost c ok (fun _ => True) (g x)) :
    (Prog.forEach f xs).Cost c ok (fun _ => True) (xs.map g).sum := by
  induction xs with
  | nil => trivial
  | cons x xs ih =>
    have : (Prog.forEach f (x :: xs)).Cost c ok (fun _ => True) (g x + ((xs.map g).sum + 0)) := (hf x).bind fun y _ => ih.bind fun ys _ => trivial
    refine this.mono ?_ fun _ h => h
    simp

end Prog.Cost

/-- The actions of a run stay within the bound, and so does the rest. -/
theorem Exec.cost {c : Act → Nat} {ok : (a : Act) → a.Resp → Prop} {α : Type} {Q : α → Prop} {n : Nat} {w w' : World} {p p' : Prog α} {tr : List Ev}
    (h : Exec w p tr w' p') (hok : ∀ e ∈ KM.own tr, ok e.act e.resp) (hp : p.Cost c ok Q n) :
    KM.cost c (KM.own tr) ≤ n ∧ p'.Cost c ok Q (n - KM.cost c (KM.own tr)) := by
  induction h generalizing n with
  | refl => exact ⟨Nat.zero_le _, by simpa [KM.cost] using hp⟩
  | env a r _ _ ih => exact ih hok hp
  | mine a k r _ _ ih =>
    rw [own_mine] at hok
    obtain ⟨h1, h2⟩ := ih (fun e he => hok e (List.mem_cons_of_mem _ he)) (hp.2 r (hok ⟨a, r⟩ (List.mem_cons_self ..)))
    have := hp.1
    rw [own_mine, cost_cons]
    refine ⟨by omega, ?_⟩
    rw [Nat.sub_add_eq]
    exact h2
  | unroll => exact hp.elim

theorem own_envSteps {w w' : World} {tr : List Ev} (h : EnvSteps w tr w') : own tr = [] := own_of_env h.2

end KM
