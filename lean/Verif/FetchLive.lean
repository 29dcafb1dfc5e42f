import Verif.FetchRun
import Verif.Cost
/-
How long a Fetch can take.
-/
namespace KM

/-- Counts all actions. -/
def stepCost : Act → Nat := fun _ => 1
/-- Counts sleeps. -/
def sleepCost : Act → Nat
  | .sleep _ => 1
  | _ => 0

variable {c : Act → Nat} {ok : (a : Act) → a.Resp → Prop}

theorem fetchPass_cost {n : Nat} (hc : ∀ t p o, c (.fetchRecord t p o) ≤ n) (fds : List FetchData) :
    (fetchPass fds).Cost c ok (fun x => x.1.length = fds.length) (fds.length * n) := by
  induction fds with
  | nil => exact rfl
  | cons fd rest ih =>
    have hb : ∀ (f : List FetchData × Bool → List FetchData × Bool), (∀ x, (f x).1.length = x.1.length + 1) →
        ((fetchPass rest).bind fun x => .ret (f x)).Cost c ok (fun x => x.1.length = (fd :: rest).length) (rest.length * n) := by
      intro f hf
      exact ih.bind (m := 0) fun v hv => by
        show (f v).1.length = _
        rw [hf, hv]; rfl
    have e : (fd :: rest).length * n = n + rest.length * n := by rw [List.length_cons, Nat.add_mul]; omega
    unfold fetchPass
    cases hk : fd.kp with
    | none => exact (hb (fun x => (fd :: x.1, x.2)) fun _ => rfl).mono (by omega) fun _ h => h
    | some tp =>
      obtain ⟨t, p⟩ := tp
      refine ⟨by have := hc t p fd.offset; omega, fun r _ => ?_⟩
      have := hc t p fd.offset
      match r with
      | none => trivial
      | some none => exact (hb (fun x => (fd :: x.1, x.2)) fun _ => rfl).mono (by omega) fun _ h => h
      | some (some rec) => exact (hb (fun x => (_ :: x.1, true)) fun _ => rfl).mono (by omega) fun _ h => h

theorem fetchBody_cost (ex : Int) (st : FetchSt) : (fetchBody ex st).Cost stepCost ok (fun _ => True) (st.fds.length + 3) := by
  have := (fetchPass_cost (c := stepCost) (ok := ok) (n := 1) (fun _ _ _ => Nat.le_refl _) st.fds).bind
    (Q' := fun _ => True) (m := 3) (f := fun (fds, more) =>
      let hasOne := st.hasOne || more
      if more then (.ret (.inl ⟨fds, hasOne⟩) : Prog (FetchSt ⊕ List FetchData))
      else if hasOne then .ret (.inr fds)
      else .act .now fun t =>
        if t > ex then .ret (.inr fds)
        else .act .isDone fun isClosed =>
          if isClosed then .ret (.inr fds)
          else .act (.sleep 20000000) fun _ => .ret (.inl ⟨fds, hasOne⟩)) (by
      rintro ⟨fds, more⟩ _
      dsimp only
      split
      · trivial
      · split
        · trivial
        · refine ⟨by decide, fun r _ => ?_⟩
          dsimp only
          split
          · trivial
          · refine ⟨by decide, fun r _ => ?_⟩
            dsimp only
            split
            · trivial
            · exact ⟨by decide, fun r _ => trivial⟩)
  simpa [fetchBody] using this

theorem fetchBody_sleeps (ex : Int) (st : FetchSt) : (fetchBody ex st).Cost sleepCost ok (fun _ => True) 1 := by
  have := (fetchPass_cost (c := sleepCost) (ok := ok) (n := 0) (fun _ _ _ => Nat.le_refl _) st.fds).bind
    (Q' := fun _ => True) (m := 1) (f := fun (fds, more) =>
      let hasOne := st.hasOne || more
      if more then (.ret (.inl ⟨fds, hasOne⟩) : Prog (FetchSt ⊕ List FetchData))
      else if hasOne then .ret (.inr fds)
      else .act .now fun t =>
        if t > ex then .ret (.inr fds)
        else .act .isDone fun isClosed =>
          if isClosed then .ret (.inr fds)
          else .act (.sleep 20000000) fun _ => .ret (.inl ⟨fds, hasOne⟩)) (by
      rintro ⟨fds, more⟩ _
      dsimp only
      split
      · trivial
      · split
        · trivial
        · refine ⟨by decide, fun r _ => ?_⟩
          dsimp only
          split
          · trivial
          · refine ⟨by decide, fun r _ => ?_⟩
            dsimp only
            split
            · trivial
            · exact ⟨by decide, fun r _ => trivial⟩)
  simpa [fetchBody] using this

theorem fetchSetup_cost (topics : List FetchTopic) :
    (fetchSetup topics).Cost stepCost ok (fun _ => True) (topics.length + (topics.flatMap fun t => t.partitions.map fun p => (t.topic, p)).length) := by
  have h1 : ∀ (t : Bytes) (kt : Bool) (par : FetchPartition), (fetchSetupPartition t kt par).Cost stepCost ok (fun _ => True) 1 := by
    intro t kt par
    unfold fetchSetupPartition
    dsimp only
    split
    · exact ⟨by simp [stepCost], fun r _ => trivial⟩
    · trivial
  have h2 : ∀ ft : FetchTopic, (Prog.act (.getTopic ft.topic) fun kt => Prog.forEach (fetchSetupPartition ft.topic kt) ft.partitions).Cost stepCost ok
      (fun _ => True) (1 + ft.partitions.length) := by
    intro ft
    refine ⟨by simp [stepCost], fun kt _ => ?_⟩
    exact (Prog.Cost.forEach (g := fun _ => 1) _ (h1 ft.topic kt)).mono (by simp [stepCost]) fun _ h => h
  have h3 := (Prog.Cost.forEach topics h2).map (Q' := fun _ => True) List.flatten fun _ _ => trivial
  refine h3.mono ?_ fun _ h => h
  clear h1 h2 h3
  induction topics with
  | nil => simp
  | cons t ts ih => simp only [List.map_cons, List.sum_cons, List.length_cons, List.flatMap_cons, List.length_append, List.length_map] at *; omega

theorem fetchSetup_sleeps (topics : List FetchTopic) : (fetchSetup topics).Cost sleepCost ok (fun _ => True) 0 := by
  have h1 : ∀ (t : Bytes) (kt : Bool) (par : FetchPartition), (fetchSetupPartition t kt par).Cost sleepCost ok (fun _ => True) 0 := by
    intro t kt par
    unfold fetchSetupPartition
    dsimp only
    split
    · exact ⟨by simp [sleepCost], fun r _ => trivial⟩
    · trivial
  have h2 : ∀ ft : FetchTopic, (Prog.act (.getTopic ft.topic) fun kt => Prog.forEach (fetchSetupPartition ft.topic kt) ft.partitions).Cost sleepCost ok
      (fun _ => True) 0 := by
    intro ft
    refine ⟨by simp [sleepCost], fun kt _ => ?_⟩
    exact (Prog.Cost.forEach (g := fun _ => 0) _ (h1 ft.topic kt)).mono (by simp [sleepCost]) fun _ h => h
  have h3 := (Prog.Cost.forEach (g := fun _ => 0) topics h2).map (Q' := fun _ => True) List.flatten fun _ _ => trivial
  exact h3.mono (by simp) fun _ h => h

theorem PassResult.length {w w' : World} {tr : List Ev} {l l' : List FetchData} {m : Bool} (h : PassResult w tr w' l l' m) : l'.length = l.length := by
  induction h <;> simp_all

/-! ### Progress through the available records -/

/-- Records still to be taken over from the final log. -/
def rem1 (wf : World) (src : Bytes × FetchPartition) (fd : FetchData) : Nat :=
  (src.2.fetchOffset.toInt + ((wf.log src.1 src.2.partition).drop src.2.fetchOffset.toInt.toNat).length - fd.offset).toNat

def remAll (wf : World) : List (Bytes × FetchPartition) → List FetchData → Nat
  | src :: srcs, fd :: fds => rem1 wf src fd + remAll wf srcs fds
  | _, _ => 0

/-- Everything in the final log from the requested offset on fits the limit. -/
def Fits (wf : World) (src : Bytes × FetchPartition) : Prop :=
  (∀ r ∈ (wf.log src.1 src.2.partition), 0 < recSize r) ∧
  (((wf.log src.1 src.2.partition).drop src.2.fetchOffset.toInt.toNat).map recSize).sum ≤ max 0 src.2.maxBytes.toInt

theorem recSize_sum_nonneg (l : List Record) (hl : ∀ r ∈ l, 0 < recSize r) : 0 ≤ (l.map recSize).sum := by
  induction l with
  | nil => simp
  | cons x l ih =>
    have := ih fun r hr => hl r (List.mem_cons_of_mem _ hr)
    have := hl x (List.mem_cons_self ..)
    simp only [List.map_cons, List.sum_cons]; omega

theorem sum_prefix_le {a b : List Record} (h : a <+: b) (hb : ∀ r ∈ b, 0 < recSize r) : (a.map recSize).sum ≤ (b.map recSize).sum := by
  obtain ⟨t, rfl⟩ := h
  rw [List.map_append, List.sum_append]
  have := recSize_sum_nonneg t fun r hr => hb r (List.mem_append_right _ hr)
  omega

/-- A found record that fits is taken over. -/
theorem rem1_advance {N : Bytes × FetchPartition → Prop} {w wf : World} {tr : List Ev} {src : Bytes × FetchPartition} {fd : FetchData} {rec : Record}
    {t : Bytes} {p : I32} (hi : FdInv N w src fd) (hk : fd.kp = some (t, p)) (h0 : 0 ≤ fd.offset)
    (hrec : (w.log t p)[fd.offset.toNat]? = some rec) (hs : Steps w tr wf) (hf : Fits wf src) :
    rem1 wf src (fd.advance rec) + 1 ≤ rem1 wf src fd := by
  obtain ⟨i1, i2, recs, i3, i4, i5, i6, i7⟩ := hi
  rcases i2 with ⟨i2, _⟩ | ⟨i2, _⟩
  · rw [hk] at i2; cases i2
  rw [hk] at i2; cases i2
  have hnn : 0 ≤ src.2.fetchOffset.toInt := by
    rcases i3 with i3 | i3
    · subst i3; simp at i4; omega
    · exact i3.1
  have hpre : recs ++ [rec] <+: (wf.log src.1 src.2.partition).drop src.2.fetchOffset.toInt.toNat := by
    rw [hs.log]
    refine drop_append_prefix ?_
    have e : fd.offset.toNat = src.2.fetchOffset.toInt.toNat + recs.length := by omega
    rw [e] at hrec
    rcases i3 with i3 | ⟨_, _, _, i3⟩
    · subst i3
      exact prefix_snoc (rs := []) List.nil_prefix hrec
    · exact prefix_snoc i3 hrec
  have hsum := sum_prefix_le hpre fun r hr => hf.1 r (List.mem_of_mem_drop hr)
  rw [List.map_append, List.sum_append] at hsum
  have hfit : fd.ms.totalSize + recSize rec ≤ fd.maxSize := by
    have hmem : ∀ r ∈ recs ++ [rec], 0 < recSize r := fun r hr => hf.1 r (List.mem_of_mem_drop (hpre.subset hr))
    have := hf.2
    have := hmem rec (by simp)
    have := recSize_sum_nonneg recs fun r hr => hmem r (by simp [hr])
    simp only [List.map_cons, List.map_nil, List.sum_cons, List.sum_nil] at hsum
    rw [i7, i1]; omega
  have hadv : (fd.advance rec).offset = fd.offset + 1 := by
    unfold FetchData.advance
    have : fd.ms.append rec fd.maxSize = some
        { msgs := fd.ms.msgs ++ [MessageV1.ofRecord fd.ms.offset rec], offset := fd.ms.offset + 1
          totalSize := fd.ms.totalSize + (MessageV1.ofRecord fd.ms.offset rec).messageSize.toInt } := by
      unfold MessageSetV1.append
      exact if_neg (Int.not_lt.2 hfit)
    rw [this]
  have hlen := hpre.length_le
  unfold rem1
  rw [hadv]
  simp only [List.length_append, List.length_cons, List.length_nil] at hlen
  omega

theorem PassResult.progress {N : Bytes × FetchPartition → Prop} {w w' wf : World} {tr t2 : List Ev} {fds fds' : List FetchData} {m : Bool}
    {srcs : List (Bytes × FetchPartition)} (h : PassResult w tr w' fds fds' m) (hi : List.Forall₂ (FdInv N w) srcs fds) (hs : Steps w' t2 wf)
    (hf : ∀ src ∈ srcs, Fits wf src) : remAll wf srcs fds' + (if m then 1 else 0) ≤ remAll wf srcs fds := by
  induction h generalizing srcs with
  | nil => cases hi; simp [remAll]
  | skip h _ ih =>
    cases hi with
    | cons h1 h2 =>
      have := ih h2 fun s hs => hf s (List.mem_cons_of_mem _ hs)
      simp only [remAll]; omega
  | miss h hm _ ih =>
    cases hi with
    | cons h1 h2 =>
      have := ih h2 fun s hs => hf s (List.mem_cons_of_mem _ hs)
      simp only [remAll]; omega
  | @hit fd l l' m t p rec h h0 hm _ ih =>
    cases hi with
    | @cons src _ srcs _ h1 h2 =>
      have h3 := ih h2 fun s hs => hf s (List.mem_cons_of_mem _ hs)
      obtain ⟨ta, tb, wm, rfl, sa, sb, hrec⟩ := hm
      have h4 := rem1_advance (h1.steps sa) h h0 hrec (sb.append hs) (hf src (List.mem_cons_self ..))
      simp only [remAll, if_true]
      omega

theorem fetchRounds_bound {N : Bytes × FetchPartition → Prop} {srcs : List (Bytes × FetchPartition)} {ex : Int} {st st' : FetchSt} {n : Nat}
    {tr t2 : List Ev} {w w' wf : World} (h : Rounds (fetchBody ex) w st n tr w' st') (hi : List.Forall₂ (FdInv N w) srcs st.fds)
    (hs : Steps w' t2 wf) (hf : ∀ src ∈ srcs, Fits wf src) :
    ∃ k : Nat, n + remAll wf srcs st'.fds ≤ remAll wf srcs st.fds + k ∧ (k = 0 ∨ w.clock + 20000000 * ((k : Int) - 1) ≤ ex) := by
  induction h with
  | nil => exact ⟨0, by omega, .inl rfl⟩
  | @cons w w1 w2 s s1 s2 n t1 t2' h hr ih =>
    obtain ⟨ta, wa, fds, m, tb, hp, hs1, hs2, rfl, e1, e2, e3⟩ := fetchBody_ret h
    have hi1 : List.Forall₂ (FdInv N w1) srcs s1.fds := by
      rw [e1]; exact (hp.inv hs1 hi).imp fun _ _ h => h.steps hs2
    obtain ⟨k, k1, k2⟩ := ih hi1 hs
    have hprog := hp.progress hi ((hs2.append hr.steps).append hs) hf
    rw [← e1] at hprog
    have c1 := hs1.clock
    have c2 := hs2.clock
    rcases e3 with rfl | ⟨rfl, _, e4, e5⟩
    · refine ⟨k, by simp at hprog; omega, ?_⟩
      rcases k2 with k2 | k2
      · exact .inl k2
      · exact .inr (by omega)
    · refine ⟨k + 1, by simp at hprog; omega, .inr ?_⟩
      rcases k2 with rfl | k2
      · omega
      · omega

theorem fetchRounds_own {ex : Int} {st st' : FetchSt} {n : Nat} {tr : List Ev} {w w' : World} (h : Rounds (fetchBody ex) w st n tr w' st') :
    st'.fds.length = st.fds.length ∧ (own tr).length ≤ n * (st.fds.length + 3) := by
  induction h with
  | nil => exact ⟨rfl, by simp⟩
  | @cons w w1 w2 s s1 s2 n t1 t2 h hr ih =>
    obtain ⟨ta, wa, fds, m, tb, hp, _, _, _, e1, _⟩ := fetchBody_ret h
    have hl : s1.fds.length = s.fds.length := by rw [e1]; exact hp.length
    have hc := (h.cost (ok := anyResp) (fun _ _ => trivial) (fetchBody_cost ex s)).1
    have : KM.cost stepCost (own t1) = (own t1).length := cost_one _
    rw [this] at hc
    obtain ⟨i1, i2⟩ := ih
    refine ⟨by omega, ?_⟩
    rw [own_append, List.length_append, Nat.add_mul]
    rw [hl] at i2
    omega

/-- Environment steps or a residual of the last part. -/
theorem own_of_ret {α : Type} {w w' : World} {tr : List Ev} {p p' : Prog α} (h : Exec w p tr w' p') (hp : p = .panic ∨ ∃ v, p = .ret v) : own tr = [] := by
  rcases hp with rfl | ⟨v, rfl⟩
  · exact own_envSteps (exec_panic_inv h).2
  · exact own_envSteps (exec_ret_inv h).2

theorem fetchTail (q : FetchRequest) (fds : List FetchData) :
    (match fetchRespond q.topics fds with
      | none => (.panic : Prog FetchResponse)
      | some rs => .ret { throttleTimeMs := 0, responses := rs }) = .panic ∨
    ∃ v, (match fetchRespond q.topics fds with
      | none => (.panic : Prog FetchResponse)
      | some rs => .ret { throttleTimeMs := 0, responses := rs }) = .ret v := by
  cases fetchRespond q.topics fds with
  | none => exact .inl rfl
  | some rs => exact .inr ⟨_, rfl⟩

theorem rem1_le {N : Bytes × FetchPartition → Prop} {w wf : World} {src : Bytes × FetchPartition} {fd : FetchData} (h : FdInv N w src fd) :
    rem1 wf src fd ≤ ((wf.log src.1 src.2.partition).drop src.2.fetchOffset.toInt.toNat).length := by
  obtain ⟨_, _, recs, _, h4, _⟩ := h
  unfold rem1; omega

theorem remAll_le {N : Bytes × FetchPartition → Prop} {w wf : World} {srcs : List (Bytes × FetchPartition)} {fds : List FetchData}
    (h : List.Forall₂ (FdInv N w) srcs fds) :
    remAll wf srcs fds ≤ (srcs.map fun src => ((wf.log src.1 src.2.partition).drop src.2.fetchOffset.toInt.toNat).length).sum := by
  induction h with
  | nil => exact Nat.le_refl _
  | cons h1 _ ih =>
    have := rem1_le (wf := wf) h1
    simp only [remAll, List.map_cons, List.sum_cons]; omega

/-! ### After cancellation -/

/-- No record is found. -/
def quietResp : (a : Act) → a.Resp → Prop
  | .fetchRecord _ _ _, r => r = some none
  | _, _ => True

/-- No record is found and the server is done. -/
def cancelledResp : (a : Act) → a.Resp → Prop
  | .fetchRecord _ _ _, r => r = some none
  | .isDone, r => r = true
  | _, _ => True

theorem cancelled_resp {α : Type} {w w' : World} {p p' : Prog α} {tr : List Ev} (h : Exec w p tr w' p') (hc : w.cancelled = true)
    (hq : ∀ e ∈ own tr, quietResp e.act e.resp) : ∀ e ∈ own tr, cancelledResp e.act e.resp := by
  induction h with
  | refl => intro e he; cases he
  | env a r hst _ ih => exact ih (step_cancelled hst hc) hq
  | mine a k r hst _ ih =>
    rw [own_mine] at hq ⊢
    have ih := ih (step_cancelled hst hc) fun e he => hq e (List.mem_cons_of_mem _ he)
    intro e he
    rcases List.mem_cons.1 he with rfl | he
    · have h1 := hq ⟨a, r⟩ (List.mem_cons_self ..)
      cases a <;> first | exact h1 | trivial | skip
      exact hst.2.trans hc
    · exact ih e he
  | unroll _ ih => exact ih hc hq

theorem fetchPass_quiet {n : Nat} (hc : ∀ t p o, c (.fetchRecord t p o) ≤ n) (fds : List FetchData) :
    (fetchPass fds).Cost c cancelledResp (fun x => x.2 = false) (fds.length * n) := by
  induction fds with
  | nil => exact rfl
  | cons fd rest ih =>
    have e : (fd :: rest).length * n = n + rest.length * n := by rw [List.length_cons, Nat.add_mul]; omega
    have hb : ((fetchPass rest).bind fun (l, more) => .ret (fd :: l, more)).Cost c cancelledResp (fun x => x.2 = false) (rest.length * n) :=
      ih.bind (m := 0) fun v hv => hv
    unfold fetchPass
    cases hk : fd.kp with
    | none => exact hb.mono (by omega) fun _ h => h
    | some tp =>
      obtain ⟨t, p⟩ := tp
      have := hc t p fd.offset
      refine ⟨by omega, fun r hr => ?_⟩
      have hr : r = some none := hr
      subst hr
      exact hb.mono (by omega) fun _ h => h

/-- After cancellation a round that finds nothing is the last one, and does not sleep. -/
theorem fetchBody_cancelled (n : Nat) (hc : ∀ t p o, c (.fetchRecord t p o) ≤ n) (m : Nat) (hm : c .now + c .isDone ≤ m) (ex : Int) (st : FetchSt) :
    (fetchBody ex st).Cost c cancelledResp (fun o => ∃ b, o = .inr b) (st.fds.length * n + m) := by
  refine (fetchPass_quiet hc st.fds).bind ?_
  rintro ⟨fds, more⟩ hmore
  have hmore : more = false := hmore
  subst hmore
  dsimp only
  rw [if_neg (by decide)]
  split
  · exact ⟨_, rfl⟩
  · refine ⟨by omega, fun r _ => ?_⟩
    dsimp only
    split
    · exact ⟨_, rfl⟩
    · refine ⟨by omega, fun r hr => ?_⟩
      have hr : r = true := hr
      subst hr
      exact ⟨_, rfl⟩

theorem loop_cancelled {α : Type} {ex : Int} {st : FetchSt} {k : List FetchData → Prog α} (hk : ∀ b, k b = .panic ∨ ∃ v, k b = .ret v)
    {w w' : World} {tr : List Ev} {p' : Prog α} (h : Exec w (.loop st (fetchBody ex) k) tr w' p')
    (hok : ∀ e ∈ own tr, cancelledResp e.act e.resp) : (own tr).length ≤ st.fds.length + 2 ∧ cost sleepCost (own tr) = 0 := by
  obtain ⟨n, t1, w1, s1, t2, hr, rfl, hl⟩ := exec_loop_inv h
  have body : ∀ {w w' : World} {t : List Ev} {x : Prog (FetchSt ⊕ List FetchData)}, Exec w (fetchBody ex st) t w' x →
      (∀ e ∈ own t, cancelledResp e.act e.resp) → (own t).length ≤ st.fds.length + 2 ∧ cost sleepCost (own t) = 0 := by
    intro w w' t x hx ho
    have c1 := (hx.cost ho (fetchBody_cancelled (c := stepCost) 1 (fun _ _ _ => Nat.le_refl _) 2 (Nat.le_refl _) ex st)).1
    have c2 := (hx.cost ho (fetchBody_cancelled (c := sleepCost) 0 (fun _ _ _ => Nat.le_refl _) 0 (Nat.le_refl _) ex st)).1
    have : cost stepCost (own t) = (own t).length := cost_one _
    exact ⟨by omega, by omega⟩
  cases hr with
  | nil =>
    rw [List.nil_append] at *
    rcases hl with ⟨_, h1⟩ | ⟨x, h1, _⟩ | ⟨b, t3, t4, w2, rfl, h1, h2⟩
    · rw [own_envSteps h1]; simp
    · exact body h1 hok
    · rw [own_append, own_of_ret h2 (hk b), List.append_nil] at hok ⊢
      exact body h1 hok
  | @cons _ w3 _ _ s3 _ n t3 t4 h1 hs =>
    exfalso
    have ho : ∀ e ∈ own t3, cancelledResp e.act e.resp := by
      intro e he
      refine hok e ?_
      rw [own_append, own_append]
      simp [he]
    have c1 := (h1.cost ho (fetchBody_cancelled (c := stepCost) 1 (fun _ _ _ => Nat.le_refl _) 2 (Nat.le_refl _) ex st)).2
    obtain ⟨b, hb⟩ := c1
    cases hb

end KM
