import Verif.Loop
/-
What a run of the Fetch handler does, pass by pass.
-/
namespace KM

/-- What one found record does to the fetch data, /repo/fetch.go:88-94. -/
def FetchData.advance (fd : FetchData) (rec : Record) : FetchData :=
  match fd.ms.append rec fd.maxSize with
  | none => fd
  | some ms => { fd with ms := ms, offset := fd.offset + 1 }

/-- The result of one pass over all partitions. -/
inductive PassResult (w : World) (tr : List Ev) (w' : World) : List FetchData → List FetchData → Bool → Prop where
  | nil : PassResult w tr w' [] [] false
  | skip {fd : FetchData} {l l' : List FetchData} {m : Bool} (h : fd.kp = none) (hs : PassResult w tr w' l l' m) :
      PassResult w tr w' (fd :: l) (fd :: l') m
  | miss {fd : FetchData} {l l' : List FetchData} {m : Bool} {t : Bytes} {p : I32} (h : fd.kp = some (t, p))
      (hm : Moment w tr w' fun wm => wm.hasPartition t p ∧ ((wm.log t p).length : Int) ≤ fd.offset) (hs : PassResult w tr w' l l' m) :
      PassResult w tr w' (fd :: l) (fd :: l') m
  | hit {fd : FetchData} {l l' : List FetchData} {m : Bool} {t : Bytes} {p : I32} {rec : Record} (h : fd.kp = some (t, p))
      (h0 : 0 ≤ fd.offset) (hm : Moment w tr w' fun wm => (wm.log t p)[fd.offset.toNat]? = some rec) (hs : PassResult w tr w' l l' m) :
      PassResult w tr w' (fd :: l) (fd.advance rec :: l') true

theorem PassResult.lift {w wa wb w' : World} {t0 t t1 : List Ev} {l l' : List FetchData} {m : Bool} (h0 : Steps w t0 wa) (h1 : Steps wb t1 w')
    (h : PassResult wa t wb l l' m) : PassResult w (t0 ++ t ++ t1) w' l l' m := by
  induction h with
  | nil => exact .nil
  | skip h _ ih => exact .skip h ih
  | miss h hm _ ih => exact .miss h (hm.lift h0 h1) ih
  | hit h h0' hm _ ih => exact .hit h h0' (hm.lift h0 h1) ih

theorem fetchPass_ret {fds fds' : List FetchData} {m : Bool} {w w' : World} {tr : List Ev}
    (h : Exec w (fetchPass fds) tr w' (.ret (fds', m))) : PassResult w tr w' fds fds' m := by
  induction fds generalizing w w' tr fds' m with
  | nil =>
    obtain ⟨e, _⟩ := exec_ret_inv h
    cases e; exact .nil
  | cons fd rest ih =>
    unfold fetchPass at h
    cases hk : fd.kp with
    | none =>
      simp only [hk] at h
      obtain ⟨t1, t2, w1, ⟨l, m1⟩, h1, h2, rfl⟩ := exec_bind_ret h
      obtain ⟨e, h3⟩ := exec_ret_inv h2
      cases e
      have := (ih h1).lift (.nil w) h3.1
      exact .skip hk (by simpa using this)
    | some tp =>
      obtain ⟨t, p⟩ := tp
      simp only [hk] at h
      obtain ⟨t1, w1, r, w2, t2, h1, s1, h2, rfl⟩ := exec_act_ret h
      have s1' := s1
      obtain ⟨kp, hkp, rfl, hr⟩ := s1
      have hlog : w2.log t p = kp.records := by simp [World.log, hkp]
      match r, hr, h2, s1' with
      | none, _, h2, _ => obtain ⟨e, _⟩ := exec_panic_inv h2; cases e
      | some none, hr, h2, s1' =>
        obtain ⟨t3, t4, w3, ⟨l, m1⟩, h3, h4, rfl⟩ := exec_bind_ret h2
        obtain ⟨e, h5⟩ := exec_ret_inv h4
        cases e
        have hlen : (kp.records.length : Int) ≤ fd.offset := by
          by_cases hlt : fd.offset < (kp.records.length : Int)
          · rw [if_pos hlt] at hr
            by_cases hneg : fd.offset < 0
            · rw [if_pos hneg] at hr; cases hr
            · rw [if_neg hneg, List.getElem?_eq_getElem (by omega)] at hr; cases hr
          · omega
        have pre : Steps w (t1 ++ [⟨true, .fetchRecord t p fd.offset, some none⟩]) w2 := h1.1.append (.cons ⟨true, _, _⟩ s1' (.nil _))
        have := (ih h3).lift pre h5.1
        refine .miss hk ⟨t1, ⟨true, .fetchRecord t p fd.offset, some none⟩ :: (t3 ++ t4), w2, rfl, h1.1,
          .cons ⟨true, _, _⟩ s1' (h3.steps.append h5.1), ?_, ?_⟩ (by simpa using this)
        · show (w2.ds.part? t p).isSome
          rw [hkp]; rfl
        · show ((w2.log t p).length : Int) ≤ fd.offset
          rw [hlog]; exact hlen
      | some (some rec), hr, h2, s1' =>
        obtain ⟨t3, t4, w3, ⟨l, m1⟩, h3, h4, rfl⟩ := exec_bind_ret h2
        obtain ⟨e, h5⟩ := exec_ret_inv h4
        cases e
        have hrec : 0 ≤ fd.offset ∧ kp.records[fd.offset.toNat]? = some rec := by
          by_cases hlt : fd.offset < (kp.records.length : Int)
          · rw [if_pos hlt] at hr
            by_cases hneg : fd.offset < 0
            · rw [if_pos hneg] at hr; cases hr
            · rw [if_neg hneg] at hr
              exact ⟨by omega, (Option.some.inj hr).symm⟩
          · rw [if_neg hlt] at hr; cases hr
        have pre : Steps w (t1 ++ [⟨true, .fetchRecord t p fd.offset, some (some rec)⟩]) w2 := h1.1.append (.cons ⟨true, _, _⟩ s1' (.nil _))
        have := (ih h3).lift pre h5.1
        have e : fd.advance rec = (match fd.ms.append rec fd.maxSize with
            | none => fd
            | some ms => { kp := some (t, p), offset := fd.offset + 1, maxSize := fd.maxSize, ms := ms }) := by
          unfold FetchData.advance; rw [hk]
        suffices hsuf : PassResult w (t1 ++ ⟨true, .fetchRecord t p fd.offset, some (some rec)⟩ :: (t3 ++ t4)) w' (fd :: rest) (fd.advance rec :: l) true by
          rw [e] at hsuf; exact hsuf
        refine .hit (m := m1) hk hrec.1 ⟨t1, ⟨true, .fetchRecord t p fd.offset, some (some rec)⟩ :: (t3 ++ t4), w2, rfl, h1.1,
          .cons ⟨true, _, _⟩ s1' (h3.steps.append h5.1), ?_⟩ (by simpa using this)
        show (w2.log t p)[fd.offset.toNat]? = some rec
        rw [hlog]; exact hrec.2

theorem fetchPass_panic {fds : List FetchData} {w w' : World} {tr : List Ev} (h : Exec w (fetchPass fds) tr w' .panic) :
    ∃ fd ∈ fds, fd.offset < 0 := by
  induction fds generalizing w tr with
  | nil => exact absurd h exec_ret_panic
  | cons fd rest ih =>
    have hrest : ∀ {w : World} {tr : List Ev} {f : List FetchData × Bool → List FetchData × Bool},
        Exec w ((fetchPass rest).bind fun x => .ret (f x)) tr w' .panic → ∃ fd' ∈ fd :: rest, fd'.offset < 0 := by
      intro w tr f h
      obtain ⟨fd', h1, h2⟩ := ih (exec_map_panic h)
      exact ⟨fd', List.mem_cons_of_mem _ h1, h2⟩
    unfold fetchPass at h
    cases hk : fd.kp with
    | none =>
      simp only [hk] at h
      exact hrest h
    | some tp =>
      obtain ⟨t, p⟩ := tp
      simp only [hk] at h
      obtain ⟨t1, w1, r, w2, t2, h1, s1, h2, rfl⟩ := exec_act_panic h
      obtain ⟨kp, hkp, rfl, hr⟩ := s1
      match r, hr, h2 with
      | none, hr, h2 =>
        refine ⟨fd, List.mem_cons_self .., ?_⟩
        by_cases hlt : fd.offset < (kp.records.length : Int)
        · rw [if_pos hlt] at hr
          by_cases hneg : fd.offset < 0
          · exact hneg
          · rw [if_neg hneg] at hr; cases hr
        · rw [if_neg hlt] at hr; cases hr
      | some none, hr, h2 => exact hrest h2
      | some (some rec), hr, h2 => exact hrest h2

/-- The partitions a request names, in order. -/
def FetchRequest.named (q : FetchRequest) : List (Bytes × FetchPartition) := q.topics.flatMap fun t => t.partitions.map fun p => (t.topic, p)

/-- Size accounted for a record, /repo/encoder.go:502. -/
def recSize (r : Record) : Int := (BitVec.ofNat 32 (34 + (r.key.getD []).length + (r.value.getD []).length)).toInt

/-- The fetch data of one requested partition: some records from the requested offset on have been taken over. `N` says the partition
was not found. -/
def FdInv (N : Bytes × FetchPartition → Prop) (w : World) (src : Bytes × FetchPartition) (fd : FetchData) : Prop :=
  fd.maxSize = src.2.maxBytes.toInt ∧
  ((fd.kp = none ∧ N src) ∨ (fd.kp = some (src.1, src.2.partition) ∧ w.hasPartition src.1 src.2.partition)) ∧
  ∃ recs : List Record, (recs = [] ∨ (0 ≤ src.2.fetchOffset.toInt ∧ fd.ms.totalSize ≤ fd.maxSize ∧
      fd.kp.isSome ∧ recs <+: (w.log src.1 src.2.partition).drop src.2.fetchOffset.toInt.toNat)) ∧
    fd.offset = src.2.fetchOffset.toInt + recs.length ∧
    fd.ms.offset = src.2.fetchOffset + BitVec.ofNat 64 recs.length ∧
    fd.ms.msgs = recs.mapIdx (fun i r => MessageV1.ofRecord (src.2.fetchOffset + BitVec.ofNat 64 i) r) ∧
    fd.ms.totalSize = (recs.map recSize).sum

theorem drop_append_prefix {α : Type} {a b : List α} {n : Nat} {l : List α} (h : l <+: a.drop n) : l <+: (a ++ b).drop n := by
  rw [List.drop_append]
  exact h.trans (List.prefix_append _ _)

theorem FdInv.steps {N : Bytes × FetchPartition → Prop} {w w' : World} {tr : List Ev} {src : Bytes × FetchPartition} {fd : FetchData}
    (h : FdInv N w src fd) (hs : Steps w tr w') : FdInv N w' src fd := by
  obtain ⟨h1, h2, recs, h3, h4⟩ := h
  refine ⟨h1, ?_, recs, ?_, h4⟩
  · rcases h2 with h2 | ⟨h2, h2'⟩
    · exact .inl h2
    · exact .inr ⟨h2, hs.hasPartition h2'⟩
  · rcases h3 with h3 | ⟨h3, h3', h3'', h3'''⟩
    · exact .inl h3
    · exact .inr ⟨h3, h3', h3'', by rw [hs.log]; exact drop_append_prefix h3'''⟩

theorem prefix_snoc {α : Type} {l rs : List α} {n : Nat} {r : α} (h : rs <+: l.drop n) (hr : l[n + rs.length]? = some r) :
    rs ++ [r] <+: l.drop n := by
  obtain ⟨t, ht⟩ := h
  have : (l.drop n)[rs.length]? = some r := by rw [List.getElem?_drop]; exact hr
  rw [← ht, List.getElem?_append_right (Nat.le_refl _), Nat.sub_self] at this
  cases t with
  | nil => cases this
  | cons x t =>
    cases this
    exact ⟨t, by rw [← ht]; simp⟩

theorem bv_add_ofNat_succ (a : I64) (n : Nat) : a + BitVec.ofNat 64 n + 1 = a + BitVec.ofNat 64 (n + 1) := by
  rw [BitVec.add_assoc]; congr 1
  apply BitVec.eq_of_toNat_eq; simp

theorem FdInv.advance {N : Bytes × FetchPartition → Prop} {w : World} {src : Bytes × FetchPartition} {fd : FetchData} {rec : Record}
    (h : FdInv N w src fd) {t : Bytes} {p : I32} (hk : fd.kp = some (t, p)) (h0 : 0 ≤ fd.offset)
    (hrec : (w.log t p)[fd.offset.toNat]? = some rec) : FdInv N w src (fd.advance rec) := by
  have horig := h
  obtain ⟨h1, h2, recs, h3, h4, h5, h6, h7⟩ := h
  rcases h2 with ⟨h2, _⟩ | ⟨h2, hp⟩
  · rw [hk] at h2; cases h2
  rw [hk] at h2; cases h2
  unfold FetchData.advance
  cases ha : fd.ms.append rec fd.maxSize with
  | none => exact horig
  | some ms =>
    unfold MessageSetV1.append at ha
    dsimp only at ha
    split at ha
    · cases ha
    · next hle =>
      cases ha
      refine ⟨h1, .inr ⟨hk, hp⟩, recs ++ [rec], .inr ⟨?_, ?_, ?_, ?_⟩, ?_, ?_, ?_, ?_⟩
      · rcases h3 with h3 | h3
        · subst h3; simp at h4; omega
        · exact h3.1
      · dsimp only; omega
      · dsimp only; rw [hk]; rfl
      · have hs : 0 ≤ src.2.fetchOffset.toInt := by
          rcases h3 with h3 | h3
          · subst h3; simp at h4; omega
          · exact h3.1
        have e : fd.offset.toNat = src.2.fetchOffset.toInt.toNat + recs.length := by omega
        rw [e] at hrec
        rcases h3 with h3 | ⟨_, _, _, h3⟩
        · subst h3
          exact prefix_snoc (rs := []) (List.nil_prefix) hrec
        · exact prefix_snoc h3 hrec
      · dsimp only; simp [h4]; omega
      · dsimp only; rw [h5, bv_add_ofNat_succ]; simp
      · dsimp only; rw [h6, List.mapIdx_append]; simp [h5]
      · simp [h7]; rfl

theorem PassResult.inv {N : Bytes × FetchPartition → Prop} {w w' : World} {tr : List Ev} {fds fds' : List FetchData} {m : Bool}
    (h : PassResult w tr w' fds fds' m) {srcs : List (Bytes × FetchPartition)} (hs : Steps w tr w') (hi : List.Forall₂ (FdInv N w) srcs fds) :
    List.Forall₂ (FdInv N w') srcs fds' := by
  induction h generalizing srcs with
  | nil => cases hi; exact .nil
  | skip h _ ih => cases hi with | cons h1 h2 => exact .cons (h1.steps hs) (ih h2)
  | miss h hm _ ih => cases hi with | cons h1 h2 => exact .cons (h1.steps hs) (ih h2)
  | hit h h0 hm _ ih =>
    cases hi with
    | cons h1 h2 =>
      obtain ⟨t1, t2, wm, rfl, s1, s2, hr⟩ := hm
      exact .cons (((h1.steps s1).advance h h0 hr).steps s2) (ih h2)

/-- After a pass that found nothing, the fetch data are unchanged and every existing partition has been seen exhausted. -/
theorem PassResult.quiet {w w' : World} {tr : List Ev} {fds fds' : List FetchData} (h : PassResult w tr w' fds fds' false) :
    fds' = fds ∧ ∀ fd ∈ fds, ∀ t p, fd.kp = some (t, p) →
      Moment w tr w' fun wm => wm.hasPartition t p ∧ ((wm.log t p).length : Int) ≤ fd.offset := by
  generalize hm : false = m at h
  induction h with
  | nil => exact ⟨rfl, by simp⟩
  | skip h _ ih =>
    obtain ⟨rfl, h2⟩ := ih hm
    refine ⟨rfl, ?_⟩
    intro fd hfd t p hk
    rcases List.mem_cons.1 hfd with rfl | hfd
    · rw [h] at hk; cases hk
    · exact h2 fd hfd t p hk
  | miss h hm' _ ih =>
    obtain ⟨rfl, h2⟩ := ih hm
    refine ⟨rfl, ?_⟩
    intro fd hfd t p hk
    rcases List.mem_cons.1 hfd with rfl | hfd
    · rw [h] at hk; cases hk; exact hm'
    · exact h2 fd hfd t p hk
  | hit => cases hm

/-- A completed round: either another pass is due, or the loop ends after a pass that found nothing. -/
theorem fetchBody_ret {ex : Int} {st : FetchSt} {o : FetchSt ⊕ List FetchData} {w w' : World} {tr : List Ev}
    (h : Exec w (fetchBody ex st) tr w' (.ret o)) :
    ∃ t1 w1 fds m t2, PassResult w t1 w1 st.fds fds m ∧ Steps w t1 w1 ∧ Steps w1 t2 w' ∧ tr = t1 ++ t2 ∧
      (match o with
       | .inl st' => st'.fds = fds ∧ st'.hasOne = (st.hasOne || m) ∧
          (m = true ∨ (m = false ∧ st.hasOne = false ∧ w1.clock ≤ ex ∧ w1.clock + 20000000 ≤ w'.clock))
       | .inr r => r = fds ∧ m = false) := by
  obtain ⟨t1, t2, w1, ⟨fds, m⟩, h1, h2, rfl⟩ := exec_bind_ret h
  refine ⟨t1, w1, fds, m, t2, fetchPass_ret h1, h1.steps, h2.steps, rfl, ?_⟩
  dsimp only at h2
  cases m with
  | true =>
    rw [if_pos rfl] at h2
    obtain ⟨e, _⟩ := exec_ret_inv h2
    cases e
    exact ⟨rfl, rfl, .inl rfl⟩
  | false =>
    rw [if_neg (by decide)] at h2
    cases hh : st.hasOne with
    | true =>
      rw [hh, if_pos (by rfl)] at h2
      obtain ⟨e, _⟩ := exec_ret_inv h2
      cases e
      exact ⟨rfl, rfl⟩
    | false =>
      rw [hh, if_neg (by decide)] at h2
      obtain ⟨t3, w3, r3, w4, t4, h3, s3, h4, rfl⟩ := exec_act_ret h2
      obtain ⟨rfl, hr3⟩ := s3
      have hr3' : (r3 : Int) = w4.clock := hr3
      by_cases hex : (r3 : Int) > ex
      · rw [if_pos hex] at h4
        obtain ⟨e, _⟩ := exec_ret_inv h4
        cases e
        exact ⟨rfl, rfl⟩
      · rw [if_neg hex] at h4
        obtain ⟨t5, w5, r5, w6, t6, h5, s5, h6, rfl⟩ := exec_act_ret h4
        obtain ⟨rfl, hr5⟩ := s5
        cases r5 with
        | true =>
          obtain ⟨e, _⟩ := exec_ret_inv h6
          cases e
          exact ⟨rfl, rfl⟩
        | false =>
          obtain ⟨t7, w7, r7, w8, t8, h7, s7, h8, rfl⟩ := exec_act_ret h6
          obtain ⟨c, hc, rfl⟩ := s7
          obtain ⟨e, h9⟩ := exec_ret_inv h8
          cases e
          have c1 := h3.1.clock
          have c2 := h5.1.clock
          have c3 := h7.1.clock
          have c4 := h9.1.clock
          dsimp only at c4
          refine ⟨rfl, rfl, .inr ⟨rfl, rfl, ?_, ?_⟩⟩
          · have : w4.clock ≤ ex := by rw [← hr3']; exact Int.not_lt.1 hex
            omega
          · omega

theorem fetchBody_panic {ex : Int} {st : FetchSt} {w w' : World} {tr : List Ev} (h : Exec w (fetchBody ex st) tr w' .panic) :
    ∃ fd ∈ st.fds, fd.offset < 0 := by
  rcases exec_bind_panic h with h | ⟨t1, t2, w1, ⟨fds, m⟩, h1, h2, rfl⟩
  · exact fetchPass_panic h
  · exfalso
    dsimp only at h2
    split at h2
    · exact exec_ret_panic h2
    · split at h2
      · exact exec_ret_panic h2
      · obtain ⟨t3, w3, r3, w4, t4, h3, s3, h4, rfl⟩ := exec_act_panic h2
        split at h4
        · exact exec_ret_panic h4
        · obtain ⟨t5, w5, r5, w6, t6, h5, s5, h6, rfl⟩ := exec_act_panic h4
          split at h6
          · exact exec_ret_panic h6
          · obtain ⟨t7, w7, r7, w8, t8, h7, s7, h8, rfl⟩ := exec_act_panic h6
            exact exec_ret_panic h8

/-- The partition was not there when Fetch looked for it. -/
def Missing (w : World) (tr : List Ev) (w' : World) (src : Bytes × FetchPartition) : Prop :=
  Moment w tr w' fun wm => ¬ wm.hasPartition src.1 src.2.partition

theorem FdInv.mono {N N' : Bytes × FetchPartition → Prop} {w : World} {src : Bytes × FetchPartition} {fd : FetchData}
    (h : FdInv N w src fd) (hN : N src → N' src) : FdInv N' w src fd := by
  obtain ⟨h1, h2, h3⟩ := h
  refine ⟨h1, ?_, h3⟩
  rcases h2 with ⟨h2, h2'⟩ | h2
  · exact .inl ⟨h2, hN h2'⟩
  · exact .inr h2

theorem fetchSetup_ret {topics : List FetchTopic} {fds : List FetchData} {w w' : World} {tr : List Ev}
    (h : Exec w (fetchSetup topics) tr w' (.ret fds)) :
    List.Forall₂ (FdInv (Missing w tr w') w') (topics.flatMap fun t => t.partitions.map fun p => (t.topic, p)) fds := by
  obtain ⟨ls, h0, rfl⟩ := exec_map_ret h
  have h1 := forEach_ret h0
  rw [List.flatMap_def]
  apply List.rel_flatten
  rw [List.forall₂_map_left_iff]
  refine List.Forall₂.imp ?_ h1
  rintro ft l ⟨t0, t, t1, wa, wb, rfl, ha, hx, hb⟩
  obtain ⟨t2, w1, kt, w2, t3, h2, s1, h3, rfl⟩ := exec_act_ret hx
  rw [List.forall₂_map_left_iff]
  refine List.Forall₂.imp ?_ (forEach_ret h3)
  rintro par fd ⟨t4, t5, t6, wc, wd, rfl, hc, hy, hd⟩
  have s1' := s1
  obtain ⟨rfl, hkt⟩ := s1
  have mkInv : ∀ {N : Bytes × FetchPartition → Prop} {wz : World} (kp : Option (Bytes × I32)),
      ((kp = none ∧ N (ft.topic, par)) ∨ (kp = some (ft.topic, par.partition) ∧ wz.hasPartition ft.topic par.partition)) →
      FdInv N wz (ft.topic, par) ⟨kp, par.fetchOffset.toInt, par.maxBytes.toInt, newMessageSetV1 par.fetchOffset⟩ := by
    intro N wz kp hkp
    exact ⟨rfl, hkp, [], .inl rfl, by simp, by simp [newMessageSetV1], by simp [newMessageSetV1], by simp [newMessageSetV1]⟩
  unfold fetchSetupPartition at hy
  cases kt with
  | false =>
    obtain ⟨e, h5⟩ := exec_ret_inv hy
    cases e
    refine mkInv none (.inl ⟨rfl, t0 ++ t2, ⟨true, .getTopic ft.topic, false⟩ :: (t4 ++ t5 ++ t6) ++ t1, w2, by simp, ha.append h2.1,
      (Steps.cons ⟨true, .getTopic ft.topic, false⟩ s1' ((hc.append h5.1).append hd)).append hb, ?_⟩)
    intro hp
    have : w2.ds.getTopic ft.topic = true := hp.hasTopic
    rw [← hkt] at this; cases this
  | true =>
    dsimp only at hy
    rw [if_pos rfl] at hy
    obtain ⟨t7, w7, r7, w8, t8, h7, s7, h8, rfl⟩ := exec_act_ret hy
    have s7' := s7
    obtain ⟨_, rfl, hr7⟩ := s7
    obtain ⟨e, h9⟩ := exec_ret_inv h8
    cases e
    cases r7 with
    | true =>
      refine mkInv _ (.inr ⟨rfl, ?_⟩)
      have hp : w8.hasPartition ft.topic par.partition := hr7.symm
      exact ((h9.1.append hd).append hb).hasPartition hp
    | false =>
      refine mkInv _ (.inl ⟨rfl, t0 ++ t2 ++ ⟨true, .getTopic ft.topic, true⟩ :: (t4 ++ t7),
        ⟨true, .getPartition ft.topic par.partition, false⟩ :: t8 ++ t6 ++ t1, w8, by simp, ?_, ?_, ?_⟩)
      · exact (ha.append h2.1).append (Steps.cons ⟨true, .getTopic ft.topic, true⟩ s1' (hc.append h7.1))
      · exact ((Steps.cons ⟨true, .getPartition ft.topic par.partition, false⟩ s7' h9.1).append hd).append hb
      · intro hp
        have : w8.ds.getPartition ft.topic par.partition = true := hp
        rw [← hr7] at this; cases this

/-- The fetch data of one requested partition when Fetch returns. -/
def Fetched (w : World) (tr : List Ev) (w' : World) (src : Bytes × FetchPartition) (fd : FetchData) : Prop :=
  (Missing w tr w' src ∧ fd.offset = src.2.fetchOffset.toInt ∧ fd.ms.msgs = [] ∧ fd.ms.totalSize = 0) ∨
  (0 ≤ src.2.fetchOffset.toInt ∧ Moment w tr w' fun wm => wm.hasPartition src.1 src.2.partition ∧
    let recs := (wm.log src.1 src.2.partition).drop src.2.fetchOffset.toInt.toNat
    fd.offset = src.2.fetchOffset.toInt + recs.length ∧
    fd.ms.msgs = recs.mapIdx (fun i r => MessageV1.ofRecord (src.2.fetchOffset + BitVec.ofNat 64 i) r) ∧
    fd.ms.totalSize = (recs.map recSize).sum ∧ (recs = [] ∨ fd.ms.totalSize ≤ src.2.maxBytes.toInt))

theorem fetchRounds_inv {N : Bytes × FetchPartition → Prop} {srcs : List (Bytes × FetchPartition)} {ex : Int} {st st' : FetchSt} {n : Nat} {tr : List Ev}
    {w w' : World} (h : Rounds (fetchBody ex) w st n tr w' st') (hi : List.Forall₂ (FdInv N w) srcs st.fds) :
    List.Forall₂ (FdInv N w') srcs st'.fds := by
  refine Rounds.inv (I := fun w st => List.Forall₂ (FdInv N w) srcs st.fds) ?_ h hi
  intro w w1 s s1 t hi hx
  obtain ⟨t1, w2, fds, m, t2, hp, hs1, hs2, _, h1, _⟩ := fetchBody_ret hx
  rw [h1]
  exact (hp.inv hs1 hi).imp fun _ _ h => h.steps hs2

theorem FdInv.fetched {w w' : World} {tr : List Ev} {src : Bytes × FetchPartition} {fd : FetchData} {w1 w2 : World} {t0 t1 t2 : List Ev}
    (e : tr = t0 ++ t1 ++ t2) (h0 : Steps w t0 w1) (h2 : Steps w2 t2 w') (hi : FdInv (Missing w tr w') w1 src fd)
    (hq : ∀ t p, fd.kp = some (t, p) → Moment w1 t1 w2 fun wm => wm.hasPartition t p ∧ ((wm.log t p).length : Int) ≤ fd.offset) :
    Fetched w tr w' src fd := by
  obtain ⟨i1, i2, recs, i3, i4, i5, i6, i7⟩ := hi
  rcases i2 with ⟨i2, i2'⟩ | ⟨i2, _⟩
  · left
    rcases i3 with i3 | ⟨_, _, i3, _⟩
    · subst i3
      exact ⟨i2', by simpa using i4, by simpa using i6, by simpa using i7⟩
    · rw [i2] at i3; cases i3
  · right
    obtain ⟨ta, tb, wm, rfl, sa, sb, hp, hlen⟩ := hq _ _ i2
    have hpre : recs <+: (wm.log src.1 src.2.partition).drop src.2.fetchOffset.toInt.toNat := by
      rcases i3 with i3 | ⟨_, _, _, i3⟩
      · subst i3; exact List.nil_prefix
      · rw [sa.log]; exact drop_append_prefix i3
    have hnn : 0 ≤ src.2.fetchOffset.toInt := by
      rcases i3 with i3 | ⟨i3, _⟩
      · subst i3; simp at i4; omega
      · exact i3
    have heq : recs = (wm.log src.1 src.2.partition).drop src.2.fetchOffset.toInt.toNat := by
      refine List.IsPrefix.eq_of_length_le hpre ?_
      rw [List.length_drop]; omega
    refine ⟨hnn, t0 ++ ta, tb ++ t2, wm, by rw [e]; simp, h0.append sa, sb.append h2, hp, ?_⟩
    rw [← heq]
    refine ⟨i4, i6, i7, ?_⟩
    rcases i3 with i3 | ⟨_, i3, _⟩
    · exact .inl i3
    · exact .inr (by rw [← i1]; exact i3)

/-- When Fetch returns: the fetch data of all requested partitions, and the response built from them. -/
theorem fetch_ret {q : FetchRequest} {resp : FetchResponse} {w w' : World} {tr : List Ev} (h : Exec w (fetch q) tr w' (.ret resp)) :
    ∃ fds, List.Forall₂ (Fetched w tr w') q.named fds ∧ fetchRespond q.topics fds = some resp.responses ∧ resp.throttleTimeMs = 0 := by
  obtain ⟨t1, t2, w1, fds, h1, h2, rfl⟩ := exec_bind_ret h
  obtain ⟨t3, w3, r3, w4, t4, h3, s3, h4, rfl⟩ := exec_act_ret h2
  obtain ⟨n, t5, w5, st, t6, fds', w6, t7, h5, h6, h7, rfl⟩ := exec_loop_ret h4
  obtain ⟨t8, w8, fds2, m, t9, hp, hs1, hs2, rfl, rfl, rfl⟩ := fetchBody_ret h6
  obtain ⟨rfl, hq⟩ := hp.quiet
  cases hf : fetchRespond q.topics st.fds with
  | none => rw [hf] at h7; obtain ⟨e, _⟩ := exec_panic_inv h7; cases e
  | some rs =>
    rw [hf] at h7
    obtain ⟨e, h9⟩ := exec_ret_inv h7
    cases e
    refine ⟨st.fds, ?_, hf, rfl⟩
    have hpost : Steps w8 (t9 ++ t7) w' := hs2.append h9.1
    have hmid : Steps w1 (t3 ++ ⟨true, .now, r3⟩ :: t5) w5 := h3.1.append (.cons ⟨true, .now, r3⟩ s3 h5.steps)
    have hpre : Steps w (t1 ++ (t3 ++ ⟨true, .now, r3⟩ :: t5)) w5 := h1.steps.append hmid
    have i0 : List.Forall₂ (FdInv (Missing w (t1 ++ (t3 ++ ⟨true, .now, r3⟩ :: (t5 ++ (t8 ++ t9) ++ t7))) w') w4) q.named fds := by
      refine List.Forall₂.imp ?_ (fetchSetup_ret h1)
      intro src fd hi
      have hi := hi.steps (h3.1.append (.cons ⟨true, .now, r3⟩ s3 (.nil _)))
      refine hi.mono fun hN => ?_
      have := hN.lift (.nil w) ((hmid.append hs1).append hpost)
      simpa [Missing] using this
    have i1 := fetchRounds_inv h5 i0
    have e : t1 ++ (t3 ++ ⟨true, .now, r3⟩ :: (t5 ++ (t8 ++ t9) ++ t7)) = t1 ++ (t3 ++ ⟨true, .now, r3⟩ :: t5) ++ t8 ++ (t9 ++ t7) := by simp
    have key : ∀ {srcs : List (Bytes × FetchPartition)} {l : List FetchData}, (∀ fd ∈ l, fd ∈ st.fds) →
        List.Forall₂ (FdInv (Missing w (t1 ++ (t3 ++ ⟨true, .now, r3⟩ :: (t5 ++ (t8 ++ t9) ++ t7))) w') w5) srcs l →
        List.Forall₂ (Fetched w (t1 ++ (t3 ++ ⟨true, .now, r3⟩ :: (t5 ++ (t8 ++ t9) ++ t7))) w') srcs l := by
      intro srcs l hmem hf
      induction hf with
      | nil => exact .nil
      | cons hab _ ih =>
        refine .cons (hab.fetched e hpre hpost fun t p hk => hq _ (hmem _ (List.mem_cons_self ..)) t p hk) ?_
        exact ih fun fd hfd => hmem fd (List.mem_cons_of_mem _ hfd)
    exact key (fun _ h => h) i1

end KM
