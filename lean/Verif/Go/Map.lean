/-
Go maps. A `map[K]V` is an association list without duplicate keys; the order of the list is the
order in which `range` happens to visit the entries. Go leaves that order unspecified, so every model
function that ranges over a map takes the visiting order as an explicit parameter or is stated for
every permutation of the list.
-/
namespace KM

namespace GoMap
variable {K V : Type} [DecidableEq K]

/-- `v, ok := m[k]` -/
def get (m : List (K × V)) (k : K) : Option V :=
  match m with
  | [] => none
  | (k', v) :: m => if k' = k then some v else get m k

/-- `m[k] = v` -/
def set (m : List (K × V)) (k : K) (v : V) : List (K × V) :=
  match m with
  | [] => [(k, v)]
  | (k', v') :: m => if k' = k then (k, v) :: m else (k', v') :: set m k v

/-- `delete(m, k)` -/
def erase (m : List (K × V)) (k : K) : List (K × V) :=
  match m with
  | [] => []
  | (k', v') :: m => if k' = k then m else (k', v') :: erase m k

def keys (m : List (K × V)) : List K := m.map Prod.fst

@[simp] theorem get_nil (k : K) : get ([] : List (K × V)) k = none := rfl

theorem get_set (m : List (K × V)) (k k' : K) (v : V) :
    get (set m k v) k' = if k = k' then some v else get m k' := by
  induction m with
  | nil => simp [set, get]
  | cons p m ih =>
    obtain ⟨a, b⟩ := p
    simp only [set]
    by_cases h : a = k
    · subst h; simp only [if_pos, get]; split <;> simp_all
    · simp only [if_neg h, get, ih]
      by_cases h2 : a = k'
      · subst h2; simp [Ne.symm h]
      · simp [h2]

@[simp] theorem get_set_self (m : List (K × V)) (k : K) (v : V) : get (set m k v) k = some v := by
  rw [get_set, if_pos rfl]

theorem get_set_ne (m : List (K × V)) {k k' : K} (v : V) (h : k ≠ k') : get (set m k v) k' = get m k' := by
  rw [get_set, if_neg h]

theorem mem_keys_iff (m : List (K × V)) (k : K) : k ∈ keys m ↔ (get m k).isSome := by
  induction m with
  | nil => simp [keys, get]
  | cons p m ih =>
    obtain ⟨a, b⟩ := p
    simp only [keys, List.map_cons, List.mem_cons, get] at ih ⊢
    by_cases h : a = k
    · simp [h]
    · simp only [if_neg h, ← ih]; simp [Ne.symm h]

theorem get_none_iff (m : List (K × V)) (k : K) : get m k = none ↔ k ∉ keys m := by
  rw [mem_keys_iff]; cases get m k <;> simp

theorem keys_set (m : List (K × V)) (k : K) (v : V) :
    keys (set m k v) = if (get m k).isSome then keys m else keys m ++ [k] := by
  induction m with
  | nil => simp [set, keys, get]
  | cons p m ih =>
    obtain ⟨a, b⟩ := p
    simp only [set, get]
    by_cases h : a = k
    · simp [h, keys]
    · simp only [if_neg h]
      simp only [keys, List.map_cons] at ih ⊢
      rw [ih]; split <;> simp

theorem nodup_set {m : List (K × V)} (h : (keys m).Nodup) (k : K) (v : V) : (keys (set m k v)).Nodup := by
  rw [keys_set]
  cases hg : (get m k).isSome with
  | true => simpa using h
  | false =>
    have : k ∉ keys m := by rw [mem_keys_iff, hg]; simp
    simp only [Bool.false_eq_true, if_false]
    rw [List.nodup_append]
    refine ⟨h, by simp, ?_⟩
    intro a ha b hb hab
    simp at hb; subst hb; subst hab; exact this ha

theorem get_mem {m : List (K × V)} {k : K} {v : V} (h : get m k = some v) : (k, v) ∈ m := by
  induction m with
  | nil => simp [get] at h
  | cons p m ih =>
    obtain ⟨a, b⟩ := p
    simp only [get] at h
    split at h
    · rename_i e; cases h; subst e; simp
    · simp [ih h]

theorem mem_get {m : List (K × V)} (hn : (keys m).Nodup) {k : K} {v : V} (h : (k, v) ∈ m) : get m k = some v := by
  induction m with
  | nil => cases h
  | cons p m ih =>
    obtain ⟨a, b⟩ := p
    simp only [keys, List.map_cons, List.nodup_cons] at hn
    simp only [get]
    rcases List.mem_cons.1 h with h | h
    · cases h; simp
    · have : a ≠ k := by
        intro e; subst e
        exact hn.1 (List.mem_map.2 ⟨(a, v), h, rfl⟩)
      rw [if_neg this]; exact ih hn.2 h

theorem get_perm {m m' : List (K × V)} (hp : m.Perm m') (hn : (keys m).Nodup) (k : K) : get m k = get m' k := by
  have hn' : (keys m').Nodup := (hp.map Prod.fst).nodup_iff.1 hn
  cases h : get m k with
  | some v => exact (mem_get hn' (hp.mem_iff.1 (get_mem h))).symm
  | none =>
    cases h' : get m' k with
    | none => rfl
    | some v => rw [mem_get hn (hp.mem_iff.2 (get_mem h'))] at h; cases h

theorem set_get_self {m : List (K × V)} {k : K} {v : V} (h : get m k = some v) : set m k v = m := by
  induction m with
  | nil => simp [get] at h
  | cons p m ih =>
    obtain ⟨a, b⟩ := p
    simp only [get] at h
    simp only [set]
    by_cases e : a = k
    · rw [if_pos e] at h ⊢; cases h; rw [e]
    · rw [if_neg e] at h ⊢; rw [ih h]

theorem set_new {m : List (K × V)} {k : K} (v : V) (h : get m k = none) : set m k v = m ++ [(k, v)] := by
  induction m with
  | nil => rfl
  | cons p m ih =>
    obtain ⟨a, b⟩ := p
    simp only [get] at h
    simp only [set]
    by_cases e : a = k
    · rw [if_pos e] at h; cases h
    · rw [if_neg e] at h ⊢; rw [ih h]; rfl

end GoMap
end KM
