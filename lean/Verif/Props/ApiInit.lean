import Verif.ApiInit
/-
C87: the package variables that the mocks of a process share.
-/
set_option linter.unusedTactic false
namespace KM.Props
open KM KM.Spec

/-- The call is between `Lock` and `Unlock`. -/
def _root_.KM.NewPc.inside : NewPc → Bool
  | .lock | .returned => false
  | _ => true

/-- The variables are complete. -/
def _root_.KM.Proc.Complete (s : Proc) : Prop :=
  s.table = some apiTable ∧ ∃ order : List (List Char), order.Perm (GoMap.keys apiTable) ∧ s.versions = some (initVersions order)

/-- No call has returned. -/
def _root_.KM.Proc.Fresh (s : Proc) : Prop := ∀ i : Nat, s.news[i]? ≠ some .returned

/-- What the goroutine that holds the mutex has found and done. -/
def _root_.KM.Proc.HolderOk (s : Proc) : NewPc → Prop
  | .lock | .returned => False
  | .test => (s.table = none ∧ s.versions = none ∧ s.Fresh) ∨ s.Complete
  | .table => s.table = none ∧ s.versions = none ∧ s.Fresh
  | .versions => s.table = some apiTable ∧ s.versions = none ∧ s.Fresh
  | .fill rest => s.table = some apiTable ∧ s.Fresh ∧
      ∃ done : List (List Char), (done ++ rest).Perm (GoMap.keys apiTable) ∧ s.versions = some (initVersions done)
  | .unlock => s.Complete

/-- What a request has found. -/
def _root_.KM.AskTask.Ok (a : AskTask) : Prop :=
  match a.pc with
  | .lookup => True
  | .found r => r = serves a.key.toInt a.version.toInt
  | .range => serves a.key.toInt a.version.toInt = some .apiVersions
  | .entries keys => serves a.key.toInt a.version.toInt = some .apiVersions ∧ keys = supported.map fun e => e.1
  | .listed l => serves a.key.toInt a.version.toInt = some .apiVersions ∧
      l = supported.map fun e => { apiKey := BitVec.ofInt 16 e.1, minVersion := BitVec.ofInt 16 e.2.1, maxVersion := BitVec.ofInt 16 e.2.1 }

structure ProcInv (s : Proc) : Prop where
  holder : ∀ (i : Nat) (pc : NewPc), s.news[i]? = some pc → pc.inside = true → s.holder = some i
  held : ∀ i, s.holder = some i → ∃ pc, s.news[i]? = some pc ∧ s.HolderOk pc
  free : s.holder = none → (s.table = none ∧ s.versions = none ∧ s.Fresh) ∨ s.Complete
  returned : ∀ i : Nat, s.news[i]? = some .returned → s.Complete
  serving : ∀ a ∈ s.asks, s.news[a.mock]? = some .returned ∧ a.Ok

theorem get_set {l : List NewPc} {i j : Nat} {pc : NewPc} (h : l[i]? ≠ none) :
    (l.set i pc)[j]? = if i = j then some pc else l[j]? := by
  rw [List.getElem?_set]
  by_cases e : i = j
  · subst e
    have : i < l.length := by
      rcases Nat.lt_or_ge i l.length with h1 | h1
      · exact h1
      · exact absurd (List.getElem?_eq_none h1) h
    simp [this]
  · simp [e]

/-- A step of the holder within the critical section. -/
theorem inv_inside {s s' : Proc} (hs : ProcInv s) {i : Nat} {pc pc' : NewPc} (hi : s.news[i]? = some pc) (hin : pc.inside = true)
    (hn : s'.news = s.news.set i pc') (ha : s'.asks = s.asks) (hh : s'.holder = s.holder) (hok : s'.HolderOk pc')
    (hc : ¬ s.Fresh → s'.Complete) (hin' : pc'.inside = true) : ProcInv s' := by
  have hg : ∀ j, s'.news[j]? = if i = j then some pc' else s.news[j]? := fun j => by
    rw [hn]; exact get_set (by rw [hi]; simp)
  have hold := hs.holder i pc hi hin
  have hr : ∀ j : Nat, s'.news[j]? = some .returned → s.news[j]? = some .returned := by
    intro j hj
    rw [hg] at hj
    split at hj
    · cases hj; cases hin'
    · exact hj
  refine ⟨fun j q hj hq => ?_, fun j hj => ?_, fun hf => ?_, fun j hj => ?_, fun a h => ?_⟩
  · rw [hh]
    rw [hg] at hj
    split at hj
    · next e => subst e; exact hold
    · exact hs.holder j q hj hq
  · rw [hh, hold] at hj
    cases hj
    exact ⟨pc', by rw [hg, if_pos rfl], hok⟩
  · rw [hh, hold] at hf; cases hf
  · exact hc fun hF => hF j (hr j hj)
  · rw [ha] at h
    obtain ⟨h1, h2⟩ := hs.serving a h
    refine ⟨?_, h2⟩
    rw [hg, if_neg]
    · exact h1
    · intro e
      rw [← e, hi] at h1
      cases h1; cases hin

theorem fresh_set {s s' : Proc} {i : Nat} {pc pc' : NewPc} (hi : s.news[i]? = some pc) (hn : s'.news = s.news.set i pc') (hne : pc' ≠ .returned)
    (h : s.Fresh) : s'.Fresh := by
  intro j hj
  rw [hn, get_set (by rw [hi]; simp)] at hj
  split at hj
  · exact hne (Option.some.inj hj)
  · exact h j hj

theorem fresh_iff {s : Proc} (hs : ProcInv s) : ¬ s.Fresh → s.Complete := by
  intro h
  simp only [Proc.Fresh, not_forall, Decidable.not_not] at h
  obtain ⟨i, hi⟩ := h
  exact hs.returned i hi

theorem newStep_inv {s s' : Proc} {i : Nat} {order : List (List Char)} (hs : ProcInv s) (h : s.newStep i order = some s') : ProcInv s' := by
  have hok : ∀ pc, s.news[i]? = some pc → pc.inside = true → s.HolderOk pc := by
    intro pc hi hin
    obtain ⟨pc', h1, h2⟩ := hs.held i (hs.holder i pc hi hin)
    rw [hi] at h1; cases h1; exact h2
  unfold Proc.newStep at h
  split at h
  · next hi =>
    split at h
    · next hfree =>
      cases h
      have hg : ∀ j, ((s.news.set i .test)[j]? : Option NewPc) = if i = j then some .test else s.news[j]? := fun j => get_set (by rw [hi]; simp)
      have hr : ∀ j : Nat, (s.news.set i .test)[j]? = some .returned → s.news[j]? = some .returned := by
        intro j hj
        rw [hg] at hj
        split at hj
        · cases hj
        · exact hj
      have hF : s.Fresh → Proc.Fresh (({ s with holder := some i } : Proc).setNew i .test) := fun h j hj => h j (hr j hj)
      refine ⟨fun j q hj hq => ?_, fun j hj => ?_, fun hf => (by cases hf), fun j hj => hs.returned j (hr j hj), fun a h => ?_⟩
      · simp only [Proc.setNew] at hj ⊢
        rw [hg] at hj
        split at hj
        · next e => rw [e]
        · have := hs.holder j q hj hq
          rw [hfree] at this; cases this
      · cases hj
        refine ⟨.test, ?_, ?_⟩
        · simp only [Proc.setNew]; rw [hg, if_pos rfl]
        · rcases hs.free hfree with ⟨h1, h2, h3⟩ | h1
          · exact .inl ⟨h1, h2, hF h3⟩
          · exact .inr h1
      · obtain ⟨h1, h2⟩ := hs.serving a h
        refine ⟨?_, h2⟩
        simp only [Proc.setNew]
        rw [hg, if_neg]
        · exact h1
        · intro e; rw [← e, hi] at h1; cases h1
    · cases h
  · next hi =>
    cases h
    have ho := hok _ hi rfl
    split
    · next ht =>
      refine inv_inside hs hi rfl rfl rfl rfl ?_ (fun hc => (show s.Complete from fresh_iff hs hc)) rfl
      rcases ho with ⟨h1, h2, h3⟩ | h1
      · exact ⟨h1, h2, fresh_set hi rfl nofun h3⟩
      · have := h1.1; rw [ht] at this; cases this
    · next ht =>
      refine inv_inside hs hi rfl rfl rfl rfl ?_ (fun hc => (show s.Complete from fresh_iff hs hc)) rfl
      rcases ho with ⟨h1, h2, h3⟩ | h1
      · exact absurd h1 ht
      · exact h1
  · next hi =>
    cases h
    obtain ⟨h1, h2, h3⟩ := hok _ hi rfl
    exact inv_inside hs hi rfl rfl rfl rfl ⟨rfl, h2, fresh_set hi rfl nofun h3⟩ (fun hc => absurd h3 hc) rfl
  · next hi =>
    obtain ⟨h1, h2, h3⟩ := hok _ hi rfl
    split at h
    · next hp =>
      cases h
      rw [h1] at hp
      exact inv_inside hs hi rfl rfl rfl rfl ⟨h1, fresh_set hi rfl nofun h3, [], List.isPerm_iff.1 hp, rfl⟩ (fun hc => absurd h3 hc) rfl
    · cases h
  · next hi =>
    cases h
    obtain ⟨h1, h3, done, h4, h5⟩ := hok _ hi rfl
    refine inv_inside hs hi rfl rfl rfl rfl ⟨h1, done, ?_, h5⟩ (fun hc => absurd h3 hc) rfl
    rw [List.append_nil] at h4; exact h4
  · next k rest hi =>
    cases h
    obtain ⟨h1, h3, done, h4, h5⟩ := hok _ hi rfl
    refine inv_inside hs hi rfl rfl rfl rfl ⟨h1, fresh_set hi rfl nofun h3, done ++ [k], ?_, ?_⟩ (fun hc => absurd h3 hc) rfl
    · rw [List.append_assoc]; exact h4
    · simp only [Proc.setNew, h5, Option.getD_some, initVersions, List.foldl_append, List.foldl_cons, List.foldl_nil]
  · next hi =>
    cases h
    have hC : s.Complete := hok _ hi rfl
    have hold := hs.holder i _ hi rfl
    have hg : ∀ j, ((s.news.set i .returned)[j]? : Option NewPc) = if i = j then some .returned else s.news[j]? := fun j => get_set (by rw [hi]; simp)
    refine ⟨fun j q hj hq => ?_, fun j hj => (by cases hj), fun _ => .inr hC, fun _ _ => hC, fun a h => ?_⟩
    · simp only [Proc.setNew] at hj
      rw [hg] at hj
      split at hj
      · cases hj; cases hq
      · next e =>
        have := hs.holder j q hj hq
        rw [hold] at this
        exact absurd (Option.some.inj this) e
    · obtain ⟨h1, h2⟩ := hs.serving a h
      refine ⟨?_, h2⟩
      simp only [Proc.setNew]
      rw [hg]
      split
      · rfl
      · exact h1
  · cases h
  · cases h

/-- The keys that the first loop of `apiVersionsV0` finds, sorted. -/
theorem versions_keys {order : List (List Char)} (h : order.Perm (GoMap.keys apiTable)) {order' : List Int}
    (h' : order'.Perm (GoMap.keys (initVersions order))) :
    (order'.filter fun k => match GoMap.get (initVersions order) k with
      | some vr => decide (vr.min.toInt > -2)
      | none => false).mergeSort (· ≤ ·) = supported.map fun e => e.1 := by
  have hp := initVersions_perm h
  have hn : (GoMap.keys (initVersions order)).Nodup := (hp.map Prod.fst).nodup_iff.2 (by decide)
  have hk : order'.Perm [1, 2, 3, 8, 9, 10, 11, 12, 13, 14, 18] := h'.trans (hp.map Prod.fst)
  simp only [fun k => GoMap.get_perm hp hn k]
  rw [List.filter_eq_self.2 ?_, sorted_perm_eq ((List.mergeSort_perm _ _).trans hk) (sortInts_pairwise _) (by decide)]
  · decide +kernel
  · intro k hm
    have hd : ∀ k ∈ [(1 : Int), 2, 3, 8, 9, 10, 11, 12, 13, 14, 18],
        (GoMap.get (supported.map fun e => (e.1, ({ min := BitVec.ofInt 16 e.2.1, max := BitVec.ofInt 16 e.2.1 } : VersionRange))) k).any
          (fun vr => decide (vr.min.toInt > -2)) = true := by decide +kernel
    have := hd k (hk.mem_iff.1 hm)
    rw [Option.any_eq_true] at this
    obtain ⟨vr, h1, h2⟩ := this
    simp only [h1, h2]

theorem askStep_inv {s s' : Proc} {j : Nat} {order : List Int} (hs : ProcInv s) (h : s.askStep j order = some s') : ProcInv s' := by
  unfold Proc.askStep at h
  split at h
  · cases h
  · next a ha =>
    have ham : a ∈ s.asks := List.mem_of_getElem? ha
    obtain ⟨hret, hok⟩ := hs.serving a ham
    obtain ⟨ht, ord, hp, hv⟩ := hs.returned _ hret
    have key : ∀ pc, AskTask.Ok { a with pc := pc } → ProcInv { s with asks := s.asks.set j { a with pc := pc } } := by
      intro pc hpc
      refine ⟨hs.holder, hs.held, hs.free, hs.returned, fun b hb => ?_⟩
      rcases List.mem_or_eq_of_mem_set hb with h1 | rfl
      · exact hs.serving b h1
      · exact ⟨hret, hpc⟩
    simp only at h
    unfold AskTask.Ok at hok
    split at h
    · cases h
      refine key _ ?_
      show _ = _
      rw [ht]; exact apiTable_get _ _
    · next e =>
      cases h
      rw [e] at hok
      exact key _ hok.symm
    · cases h
    · next e =>
      split at h
      · next hperm =>
        cases h
        rw [e] at hok
        rw [hv] at hperm
        refine key _ ⟨hok, ?_⟩
        rw [hv]
        exact versions_keys hp (List.isPerm_iff.1 hperm)
      · cases h
    · next keys e =>
      cases h
      rw [e] at hok
      refine key _ ⟨hok.1, ?_⟩
      have hq := initVersions_perm hp
      have hn : (GoMap.keys (initVersions ord)).Nodup := (hq.map Prod.fst).nodup_iff.2 (by decide)
      rw [hv, Option.getD_some, hok.2]
      simp only [fun k => GoMap.get_perm hq hn k]
      decide +kernel
    · cases h

theorem reach_inv {s : Proc} (h : Proc.Reach s) : ProcInv s := by
  induction h with
  | start => exact ⟨nofun, nofun, fun _ => .inl ⟨rfl, rfl, nofun⟩, nofun, nofun⟩
  | @step s s' _ hst ih =>
    cases hst with
    | call =>
      have hr : ∀ j : Nat, (s.news ++ [.lock])[j]? = some .returned → s.news[j]? = some .returned := by
        intro j hj
        rw [List.getElem?_append] at hj
        split at hj
        · exact hj
        · rw [List.getElem?_singleton] at hj; split at hj <;> cases hj
      have hl : ∀ (j : Nat) (pc : NewPc), s.news[j]? = some pc → (s.news ++ [.lock])[j]? = some pc := by
        intro j pc hj
        rw [List.getElem?_append_left (List.getElem?_eq_some_iff.1 hj).1]; exact hj
      have hF : s.Fresh → Proc.Fresh { s with news := s.news ++ [.lock] } := fun h j hj => h j (hr j hj)
      refine ⟨fun j q hj hq => ?_, fun j hj => ?_, fun hf => ?_, fun j hj => ih.returned j (hr j hj), fun a h => ?_⟩
      · simp only at hj
        rw [List.getElem?_append] at hj
        split at hj
        · exact ih.holder j q hj hq
        · rw [List.getElem?_singleton] at hj
          split at hj
          · cases hj; cases hq
          · cases hj
      · obtain ⟨pc, h1, h2⟩ := ih.held j hj
        refine ⟨pc, hl j pc h1, ?_⟩
        cases pc with
        | lock | returned => exact h2
        | test => exact h2.imp (fun h => ⟨h.1, h.2.1, hF h.2.2⟩) id
        | table => exact ⟨h2.1, h2.2.1, hF h2.2.2⟩
        | versions => exact ⟨h2.1, h2.2.1, hF h2.2.2⟩
        | fill rest => exact ⟨h2.1, hF h2.2.1, h2.2.2⟩
        | unlock => exact h2
      · exact (ih.free hf).imp (fun h => ⟨h.1, h.2.1, hF h.2.2⟩) id
      · obtain ⟨h1, h2⟩ := ih.serving a h
        exact ⟨hl _ _ h1, h2⟩
    | new h => exact newStep_inv ih h
    | ask h => 
      refine ⟨ih.holder, ih.held, ih.free, ih.returned, fun b hb => ?_⟩
      rcases List.mem_append.1 hb with h1 | h1
      · exact ih.serving b h1
      · rw [List.mem_singleton] at h1
        subst h1
        exact ⟨h, trivial⟩
    | serve h => exact askStep_inv ih h

/-- Serving connections and requests that find no handler. -/
theorem found_ok {s : Proc} (h : Proc.Reach s) {a : AskTask} (ha : a ∈ s.asks) : a.Ok := ((reach_inv h).serving a ha).2

/-- **C87** (lookup): whatever mocks are being created at the time, a request finds the handler of its API key and version if they are among the eleven
supported ones, and no handler otherwise. -/
theorem C87_lookup {s : Proc} (h : Proc.Reach s) {a : AskTask} (ha : a ∈ s.asks) {r : Option Api} (hr : a.pc = .found r) :
    r = serves a.key.toInt a.version.toInt := by
  have := found_ok h ha
  unfold AskTask.Ok at this
  rw [hr] at this; exact this

/-- **C87** (list): the list of an ApiVersions response has every API key once, in ascending order, and a version of a key is within its range exactly if the pair is
one that has a handler. -/
theorem C87_list {s : Proc} (h : Proc.Reach s) {a : AskTask} (ha : a ∈ s.asks) {l : List ApiKeyEntry} (hl : a.pc = .listed l) :
    a.key = 18 ∧ a.version = 0 ∧ l.Pairwise (fun a b => a.apiKey.toInt < b.apiKey.toInt) ∧
      ∀ k v : I16, (∃ e ∈ l, e.apiKey = k ∧ e.minVersion.toInt ≤ v.toInt ∧ v.toInt ≤ e.maxVersion.toInt) ↔ (serves k.toInt v.toInt).isSome := by
  have := found_ok h ha
  unfold AskTask.Ok at this
  rw [hl] at this
  obtain ⟨h1, rfl⟩ := this
  have h16 : ∀ x ∈ supported, (BitVec.ofInt 16 x.1).toInt = x.1 ∧ (BitVec.ofInt 16 x.2.1).toInt = x.2.1 := by decide
  have hkv : a.key = 18 ∧ a.version = 0 := by
    simp only [serves, Option.map_eq_some_iff] at h1
    obtain ⟨x, hx, hx2⟩ := h1
    have hp := List.find?_some hx
    simp only [Bool.and_eq_true, beq_iff_eq] at hp
    have hu : ∀ x ∈ supported, x.2.2 = .apiVersions → x.1 = 18 ∧ x.2.1 = 0 := by decide
    obtain ⟨e1, e2⟩ := hu x (List.mem_of_find?_eq_some hx) hx2
    exact ⟨BitVec.eq_of_toInt_eq (by rw [← hp.1, e1]; rfl), BitVec.eq_of_toInt_eq (by rw [← hp.2, e2]; rfl)⟩
  refine ⟨hkv.1, hkv.2, by decide, fun k v => ?_⟩
  simp only [serves, Option.isSome_map, List.find?_isSome, Bool.and_eq_true, beq_iff_eq, List.mem_map]
  constructor
  · rintro ⟨e, ⟨x, hx, rfl⟩, h1, h2, h3⟩
    obtain ⟨e1, e2⟩ := h16 x hx
    simp only [e2] at h2 h3
    refine ⟨x, hx, ?_, by omega⟩
    rw [← h1, e1]
  · rintro ⟨x, hx, h1, h2⟩
    obtain ⟨e1, e2⟩ := h16 x hx
    refine ⟨_, ⟨x, hx, rfl⟩, ?_, ?_, ?_⟩
    · simp only; rw [h1]; simp
    · simp only [e2]; omega
    · simp only [e2]; omega

/-- The variables the mocks share: `apiTable`, and `apiVersions` with its map. -/
inductive GlobalVar where
  | table
  | versions
deriving DecidableEq, Repr

/-- A goroutine: a call of `NewKafkaMock`, or a connection with a request. -/
inductive ProcTask where
  | new (i : Nat)
  | ask (j : Nat)
deriving DecidableEq, Repr

/-- What a goroutine reads in its next step. -/
def _root_.KM.Proc.reads (s : Proc) : ProcTask → List GlobalVar
  | .new i => match s.news[i]? with
    | some .test => [.table]
    | some .versions => [.table]
    | some (.fill _) => [.versions, .table]
    | _ => []
  | .ask j => match s.asks[j]? with
    | some a => match a.pc with
      | .lookup => [.table]
      | .range | .entries _ => [.versions]
      | _ => []
    | none => []

/-- What a goroutine writes in its next step. -/
def _root_.KM.Proc.writes (s : Proc) : ProcTask → List GlobalVar
  | .new i => match s.news[i]? with
    | some .table => [.table]
    | some .versions => [.versions]
    | some (.fill _) => [.versions]
    | _ => []
  | .ask _ => []

/-- Two goroutines are about to access the same variable at the same time, the first to write it. -/
def GlobalRace (s : Proc) (x y : ProcTask) (v : GlobalVar) : Prop := x ≠ y ∧ v ∈ s.writes x ∧ (v ∈ s.reads y ∨ v ∈ s.writes y)

/-- A call that writes is inside the critical section, and no call has returned. -/
theorem writes_inside {s : Proc} (h : ProcInv s) {x : ProcTask} {v : GlobalVar} (hx : v ∈ s.writes x) :
    ∃ i, x = .new i ∧ s.holder = some i ∧ s.Fresh := by
  cases x with
  | ask j => cases hx
  | new i =>
    have hold : ∀ pc, s.news[i]? = some pc → pc.inside = true → s.holder = some i ∧ s.HolderOk pc := by
      intro pc hi hin
      obtain ⟨pc', h1, h2⟩ := h.held i (h.holder i pc hi hin)
      rw [hi] at h1; cases h1; exact ⟨h.holder i pc hi hin, h2⟩
    simp only [Proc.writes] at hx
    split at hx
    · next hi => obtain ⟨h1, h2⟩ := hold _ hi rfl; exact ⟨i, rfl, h1, h2.2.2⟩
    · next hi => obtain ⟨h1, h2⟩ := hold _ hi rfl; exact ⟨i, rfl, h1, h2.2.2⟩
    · next hi => obtain ⟨h1, h2⟩ := hold _ hi rfl; exact ⟨i, rfl, h1, h2.2.1⟩
    · cases hx

/-- A call that accesses the variables is inside the critical section. -/
theorem access_inside {s : Proc} (h : ProcInv s) {i : Nat} {v : GlobalVar} (hx : v ∈ s.reads (.new i) ∨ v ∈ s.writes (.new i)) : s.holder = some i := by
  rcases hx with hx | hx
  · simp only [Proc.reads] at hx
    split at hx
    · next hi => exact h.holder i _ hi rfl
    · next hi => exact h.holder i _ hi rfl
    · next hi => exact h.holder i _ hi rfl
    · cases hx
  · obtain ⟨_, e, h1, _⟩ := writes_inside h hx
    cases e; exact h1

/-- **C87** (races): no two goroutines access a shared variable at the same time, one of them to write it. The connections take no mutex; they are started after a
call has returned, and from then on nobody writes. -/
theorem C87_no_race {s : Proc} (h : Proc.Reach s) (x y : ProcTask) (v : GlobalVar) : ¬ GlobalRace s x y v := by
  rintro ⟨hne, hw, ha⟩
  have hs := reach_inv h
  obtain ⟨i, rfl, hi, hF⟩ := writes_inside hs hw
  cases y with
  | new j =>
    have := access_inside hs ha
    rw [hi] at this
    exact hne (by rw [Option.some.inj this])
  | ask j =>
    rcases ha with ha | ha
    · simp only [Proc.reads] at ha
      split at ha
      · next a haj => exact hF _ (hs.serving a (List.mem_of_getElem? haj)).1
      · cases ha
    · cases ha

/-- **C87** (stable): from the first return of a call on, the variables keep their values. Later calls only take the mutex, look, and release it. -/
theorem C87_stable {s s' : Proc} (h : Proc.Reach s) (hst : Proc.Step s s') {i : Nat} (hi : s.news[i]? = some .returned) :
    s'.table = s.table ∧ s'.versions = s.versions := by
  have hs := reach_inv h
  cases hst with
  | call => exact ⟨rfl, rfl⟩
  | ask => exact ⟨rfl, rfl⟩
  | serve hj =>
    unfold Proc.askStep at hj
    split at hj
    · cases hj
    · simp only at hj
      split at hj <;> first
        | (cases hj; exact ⟨rfl, rfl⟩)
        | (cases hj; done)
        | (split at hj
           · cases hj; exact ⟨rfl, rfl⟩
           · cases hj)
  | @new _ j order hj =>
    have key : ∀ v, v ∉ s.writes (.new j) := fun v hv => by
      obtain ⟨_, _, _, hF⟩ := writes_inside hs hv
      exact hF i hi
    unfold Proc.newStep at hj
    simp only [Proc.writes] at key
    split at hj
    · split at hj
      · cases hj; exact ⟨rfl, rfl⟩
      · cases hj
    · cases hj; exact ⟨rfl, rfl⟩
    · next e => rw [e] at key; exact absurd (List.mem_singleton.2 rfl) (key .table)
    · next e => rw [e] at key; exact absurd (List.mem_singleton.2 rfl) (key .versions)
    · cases hj; exact ⟨rfl, rfl⟩
    · next e => rw [e] at key; exact absurd (List.mem_singleton.2 rfl) (key .versions)
    · cases hj; exact ⟨rfl, rfl⟩
    · cases hj
    · cases hj

/-! ### The calls return -/

/-- How many steps a call has left. -/
def _root_.KM.NewPc.left : NewPc → Nat
  | .lock => 17
  | .test => 16
  | .table => 15
  | .versions => 14
  | .fill rest => 2 + rest.length
  | .unlock => 1
  | .returned => 0

theorem sum_set {l : List NewPc} {i : Nat} {a b : NewPc} (h : l[i]? = some a) :
    ((l.set i b).map NewPc.left).sum + a.left = (l.map NewPc.left).sum + b.left := by
  induction l generalizing i with
  | nil => cases h
  | cons x l ih =>
    cases i with
    | zero =>
      rw [List.getElem?_cons_zero] at h
      cases h
      simp only [List.set_cons_zero, List.map_cons, List.sum_cons]; omega
    | succ i =>
      rw [List.getElem?_cons_succ] at h
      have := ih h
      simp only [List.set_cons_succ, List.map_cons, List.sum_cons]; omega

/-- The steps left to all calls. -/
def _root_.KM.Proc.left (s : Proc) : Nat := (s.news.map NewPc.left).sum

theorem newStep_left {s s' : Proc} (h : ProcInv s) {i : Nat} {order : List (List Char)} (hst : s.newStep i order = some s') : s'.left < s.left := by
  have key : ∀ {s1 : Proc} {pc pc' : NewPc}, s.news[i]? = some pc → s1.news = s.news → pc'.left < pc.left → (s1.setNew i pc').left < s.left := by
    intro s1 pc pc' hi hn hl
    have := sum_set (b := pc') hi
    simp only [Proc.left, Proc.setNew, hn]
    omega
  unfold Proc.newStep at hst
  split at hst
  · next hi =>
    split at hst
    · cases hst; exact key hi rfl (by decide)
    · cases hst
  · next hi =>
    cases hst
    refine key hi rfl ?_
    split <;> decide
  · next hi => cases hst; exact key hi rfl (by decide)
  · next hi =>
    split at hst
    · next hp =>
      cases hst
      refine key hi rfl ?_
      obtain ⟨pc, h1, h2⟩ := h.held i (h.holder i _ hi rfl)
      rw [hi] at h1
      cases h1
      rw [h2.1] at hp
      have := (List.isPerm_iff.1 hp).length_eq
      have h11 : (GoMap.keys apiTable).length = 11 := by decide
      simp only [Option.getD_some, h11] at this
      simp only [NewPc.left, this]; omega
    · cases hst
  · next hi => cases hst; exact key hi rfl (by decide)
  · next hi =>
    cases hst
    refine key hi rfl ?_
    simp only [NewPc.left, List.length_cons]; omega
  · next hi => cases hst; exact key hi rfl (by decide)
  · cases hst
  · cases hst

theorem left_le (l : List NewPc) (h : ∀ pc ∈ l, pc.left ≤ 17) : (l.map NewPc.left).sum ≤ 17 * l.length := by
  induction l with
  | nil => exact Nat.le_refl _
  | cons x l ih =>
    have h1 := h x List.mem_cons_self
    have h2 := ih fun pc hpc => h pc (List.mem_cons_of_mem _ hpc)
    simp only [List.map_cons, List.sum_cons, List.length_cons]; omega

/-- A sequence of steps of callers. -/
inductive Callers : Nat → Proc → Proc → Prop where
  | nil {s : Proc} : Callers 0 s s
  | cons {n : Nat} {s s1 s2 : Proc} {i : Nat} {order : List (List Char)} : s.newStep i order = some s1 → Callers n s1 s2 → Callers (n + 1) s s2

theorem callers_left {n : Nat} {s s' : Proc} (hs : ProcInv s) (h : Callers n s s') : s'.left + n ≤ s.left := by
  induction h with
  | nil => exact Nat.le_refl _
  | cons hst _ ih =>
    have := newStep_left hs hst
    have := ih (newStep_inv hs hst)
    omega

theorem inside_ok {s : Proc} {pc : NewPc} (h : s.HolderOk pc) : pc.inside = true := by
  cases pc <;> first | rfl | exact h.elim

theorem pending_step {s : Proc} (hs : ProcInv s) {i : Nat} {pc : NewPc} (hi : s.news[i]? = some pc) (hp : pc ≠ .returned) :
    ∃ j order s', s.newStep j order = some s' := by
  have inside : ∀ j pc, s.news[j]? = some pc → pc.inside = true → ∃ order s', s.newStep j order = some s' := by
    intro j pc hj hin
    refine ⟨GoMap.keys (s.table.getD []), ?_⟩
    unfold Proc.newStep
    rw [hj]
    cases pc with
    | lock => cases hin
    | returned => cases hin
    | test => exact ⟨_, rfl⟩
    | table => exact ⟨_, rfl⟩
    | versions => exact ⟨_, if_pos (List.isPerm_iff.2 (.refl _))⟩
    | fill rest => cases rest <;> exact ⟨_, rfl⟩
    | unlock => exact ⟨_, rfl⟩
  cases hh : s.holder with
  | some j =>
    obtain ⟨pc', h1, h2⟩ := hs.held j hh
    obtain ⟨o, s', h3⟩ := inside j pc' h1 (inside_ok h2)
    exact ⟨j, o, s', h3⟩
  | none =>
    cases pc with
    | returned => exact absurd rfl hp
    | lock =>
      refine ⟨i, [], ({ s with holder := some i } : Proc).setNew i .test, ?_⟩
      unfold Proc.newStep
      rw [hi]
      exact if_pos hh
    | test | table | versions | fill | unlock =>
      have := hs.holder i _ hi rfl
      rw [hh] at this; cases this

/-- **C87** (returns): as long as a call of `NewKafkaMock` has not returned, one of the calls can go on, and the calls cannot take more than 17 steps each. So however
the callers are scheduled, as long as one that can go on does, all calls return. -/
theorem C87_returns {s : Proc} (h : Proc.Reach s) :
    (∀ {n : Nat} {s' : Proc}, Callers n s s' → n ≤ 17 * s.news.length ∧
      ((∀ (j : Nat) (order : List (List Char)), s'.newStep j order = none) → ∀ (i : Nat) (pc : NewPc), s'.news[i]? = some pc → pc = .returned)) := by
  have hs := reach_inv h
  intro n s' hc
  constructor
  · have h1 := callers_left hs hc
    have h2 : s.left ≤ 17 * s.news.length := by
      refine left_le _ fun pc hpc => ?_
      obtain ⟨i, hi⟩ := List.mem_iff_getElem?.1 hpc
      cases pc with
      | fill rest =>
        obtain ⟨pc', h3, h4⟩ := hs.held i (hs.holder i _ hi rfl)
        rw [hi] at h3
        cases h3
        obtain ⟨_, _, done, h5, _⟩ := h4
        have := h5.length_eq
        have h11 : (GoMap.keys apiTable).length = 11 := by decide
        rw [h11, List.length_append] at this
        simp only [NewPc.left]; omega
      | _ => simp [NewPc.left]
    omega
  · intro hnone i pc hi
    have hs' : ProcInv s' := by
      clear hnone hi
      induction hc with
      | nil => exact hs
      | cons hst _ ih => exact ih (.step h (.new hst)) (newStep_inv hs hst)
    by_cases hp : pc = .returned
    · exact hp
    · obtain ⟨j, o, s1, h1⟩ := pending_step hs' hi hp
      rw [hnone] at h1; cases h1

/-! ### What a step depends on and changes -/

/-- The variable has the same value in both states. -/
def GlobalVar.same (s s' : Proc) : GlobalVar → Prop
  | .table => s'.table = s.table
  | .versions => s'.versions = s.versions

/-- A step of a call changes only the variables it is said to write. -/
theorem newStep_writes {s s' : Proc} {i : Nat} {order : List (List Char)} (h : s.newStep i order = some s') (v : GlobalVar)
    (hv : v ∉ s.writes (.new i)) : v.same s s' := by
  unfold Proc.newStep at h
  simp only [Proc.writes] at hv
  split at h
  · split at h
    · cases h; cases v <;> rfl
    · cases h
  · cases h; cases v <;> rfl
  · next e => rw [e] at hv; cases h; cases v <;> first | rfl | exact absurd (List.mem_singleton.2 rfl) hv
  · next e =>
    rw [e] at hv
    split at h
    · cases h; cases v <;> first | rfl | exact absurd (List.mem_singleton.2 rfl) hv
    · cases h
  · cases h; cases v <;> rfl
  · next e => rw [e] at hv; cases h; cases v <;> first | rfl | exact absurd (List.mem_singleton.2 rfl) hv
  · cases h; cases v <;> rfl
  · cases h
  · cases h

/-- A step of a connection changes neither variable. -/
theorem askStep_writes {s s' : Proc} {j : Nat} {order : List Int} (h : s.askStep j order = some s') (v : GlobalVar) : v.same s s' := by
  unfold Proc.askStep at h
  split at h
  · cases h
  · simp only at h
    split at h <;> first
      | (cases h; cases v <;> rfl)
      | (cases h; done)
      | (split at h
         · cases h; cases v <;> rfl
         · cases h)

/-- What a call does does not depend on a variable that it is not said to read: with another value of it, the goroutines get to the same places. -/
theorem newStep_reads {s t : Proc} (hn : t.news = s.news) (hh : t.holder = s.holder) (i : Nat) (order : List (List Char))
    (hr : ∀ v ∈ s.reads (.new i), v.same s t) : (t.newStep i order).map Proc.news = (s.newStep i order).map Proc.news := by
  unfold Proc.newStep
  rw [hn]
  simp only [Proc.reads] at hr
  split
  · rw [hh]; split <;> simp [Proc.setNew]
  · next e =>
    rw [e] at hr
    have : t.table = s.table := hr .table (List.mem_singleton.2 rfl)
    simp [Proc.setNew, hn, this]
  · simp [Proc.setNew]
  · next e =>
    rw [e] at hr
    have : t.table = s.table := hr .table (List.mem_singleton.2 rfl)
    rw [this]; split <;> simp [Proc.setNew]
  · simp [Proc.setNew, hn]
  · simp [Proc.setNew]
  · simp [Proc.setNew]
  · rfl
  · rfl

/-- The same for connections. -/
theorem askStep_reads {s t : Proc} (hn : t.asks = s.asks) (j : Nat) (order : List Int)
    (hr : ∀ v ∈ s.reads (.ask j), v.same s t) : (t.askStep j order).map Proc.asks = (s.askStep j order).map Proc.asks := by
  unfold Proc.askStep
  rw [hn]
  simp only [Proc.reads] at hr
  split
  · rfl
  · next a e =>
    rw [e] at hr
    simp only at hr ⊢
    split
    · next e2 =>
      rw [e2] at hr
      have : t.table = s.table := hr .table (List.mem_singleton.2 rfl)
      simp [this]
    · simp
    · rfl
    · next e2 =>
      rw [e2] at hr
      have : t.versions = s.versions := hr .versions (List.mem_singleton.2 rfl)
      rw [this]; split <;> simp
    · next e2 =>
      rw [e2] at hr
      have : t.versions = s.versions := hr .versions (List.mem_singleton.2 rfl)
      simp [this]
    · rfl

/-! ### A run -/

/-- The choices of a run: a new call, a step of call `i`, a request with API key `k` and version `v` to mock `i`, a step of request `j`. Maps are iterated in the
order in which the model lists them. -/
inductive PPick where
  | call
  | new (i : Nat)
  | ask (i : Nat) (k v : I16)
  | serve (j : Nat)

def ppick (s : Proc) : PPick → Option Proc
  | .call => some { s with news := s.news ++ [.lock] }
  | .new i => s.newStep i (GoMap.keys (s.table.getD []))
  | .ask i k v => if s.news[i]? = some .returned then some { s with asks := s.asks ++ [⟨i, k, v, .lookup⟩] } else none
  | .serve j => s.askStep j (GoMap.keys (s.versions.getD []))

def pplay : List PPick → Proc → Option Proc
  | [], s => some s
  | p :: ps, s => match ppick s p with
    | some s' => pplay ps s'
    | none => none

theorem pplay_reach {ps : List PPick} {s s' : Proc} (h : pplay ps s = some s') (hs : Proc.Reach s) : Proc.Reach s' := by
  induction ps generalizing s with
  | nil => cases h; exact hs
  | cons p ps ih =>
    unfold pplay at h
    split at h
    · next s1 h1 =>
      refine ih h (.step hs ?_)
      cases p with
      | call => cases h1; exact .call
      | new i => exact .new h1
      | ask i k v =>
        simp only [ppick] at h1
        split at h1
        · next hr => cases h1; exact .ask hr
        · cases h1
      | serve j => exact .serve h1
    · cases h

/-- Two goroutines create a mock. The first has the table made and is at the eighth key when the second arrives and waits for the mutex. The first returns, and its
mock gets a Fetch request, an ApiVersions request and one of an unknown API while the second looks at the table. -/
def twoMocks : List PPick :=
  [.call, .new 0, .new 0, .new 0, .new 0] ++ List.replicate 7 (.new 0) ++ [.call] ++ List.replicate 6 (.new 0) ++
  [.ask 0 1 2, .ask 0 18 0, .ask 0 1 11, .new 1, .serve 0, .serve 1, .serve 2, .serve 1, .new 1, .serve 1, .serve 1]

/-- C87, all parts: the run of `twoMocks` is possible. The Fetch request has found its handler, the unknown one none, the third has got the list; the first call has
returned, the second holds the mutex and is about to release it. -/
example : ∃ s, Proc.Reach s ∧ s.news = [.returned, .unlock] ∧ s.holder = some 1 ∧
    (s.asks.map fun a => (a.key, a.version, a.pc matches .listed _)) = [(1, 2, false), (18, 0, true), (1, 11, false)] ∧
    (∃ a ∈ s.asks, a.pc = .found (some .fetch)) ∧ (∃ a ∈ s.asks, a.pc = .found none) := by
  cases h : pplay twoMocks {} with
  | none => exact absurd h (by decide +kernel)
  | some s =>
    refine ⟨s, pplay_reach h .start, ?_⟩
    have : (pplay twoMocks {}).all (fun s => s.news = [.returned, .unlock] ∧ s.holder = some 1 ∧
      (s.asks.map fun a => (a.key, a.version, a.pc matches .listed _)) = [(1, 2, false), (18, 0, true), (1, 11, false)] ∧
      (∃ a ∈ s.asks, a.pc = .found (some .fetch)) ∧ (∃ a ∈ s.asks, a.pc = .found none)) = true := by decide +kernel
    rw [h] at this
    simpa using this

/-- C87 (races): there are states in which a call writes while another waits for the mutex, and without the mutex they would race. -/
example : ∃ s, Proc.Reach s ∧ s.writes (.new 0) = [.versions] ∧ s.news[1]? = some .lock := by
  cases h : pplay (twoMocks.take 13) {} with
  | none => exact absurd h (by decide +kernel)
  | some s =>
    refine ⟨s, pplay_reach h .start, ?_⟩
    have : (pplay (twoMocks.take 13) {}).all (fun s => s.writes (.new 0) = [.versions] ∧ s.news[1]? = some .lock) = true := by decide +kernel
    rw [h] at this
    simpa using this

end KM.Props
