import Verif.Props.Offsets
/-
Properties C29-C31 (ListOffsets), under arbitrary interleaving (in particular while records are posted).
-/
namespace KM.Props
open KM

/-- The offset to be found for a time `T`: everything from `k` on has a timestamp of at least `T`, and the record just before `k`, if any, an
earlier one. -/
def TimeOffset (log : List Record) (T : Int) (k : Nat) : Prop :=
  k ≤ log.length ∧ (∀ (i : Nat) (r : Record), k ≤ i → log[i]? = some r → T ≤ r.timestamp.toInt) ∧
  (∀ (j : Nat) (r : Record), j + 1 = k → log[j]? = some r → r.timestamp.toInt < T)

/-- There is exactly one such offset. -/
theorem C30_unique {log : List Record} {T : Int} {k1 k2 : Nat} (h1 : TimeOffset log T k1) (h2 : TimeOffset log T k2) : k1 = k2 := by
  have key : ∀ {a b : Nat}, TimeOffset log T a → TimeOffset log T b → ¬ a < b := by
    intro a b ha hb hlt
    obtain ⟨j, rfl⟩ : ∃ j, b = j + 1 := ⟨b - 1, by omega⟩
    have hj : j < log.length := by have := hb.1; omega
    have e : log[j]? = some log[j] := List.getElem?_eq_getElem hj
    have := ha.2.1 j _ (by omega) e
    have := hb.2.2 j _ rfl e
    omega
  have := key h1 h2
  have := key h2 h1
  omega

/-- When the timestamps do not decrease, it is the first offset with a timestamp of at least `T`. -/
theorem C30_sorted {log : List Record} {T : Int} {k : Nat} (h : TimeOffset log T k)
    (sorted : log.Pairwise fun a b => a.timestamp.toInt ≤ b.timestamp.toInt) :
    ∀ (i : Nat) (r : Record), log[i]? = some r → (k ≤ i ↔ T ≤ r.timestamp.toInt) := by
  intro i r hi
  constructor
  · intro hk; exact h.2.1 i r hk hi
  · intro hT
    by_cases hk : k ≤ i
    · exact hk
    · exfalso
      obtain ⟨j, rfl⟩ : ∃ j, k = j + 1 := ⟨k - 1, by omega⟩
      have hj : j < log.length := by have := h.1; omega
      have hlt := h.2.2 j _ rfl (List.getElem?_eq_getElem hj)
      obtain ⟨hil, rfl⟩ := List.getElem?_eq_some_iff.1 hi
      by_cases e : i = j
      · subst e; omega
      · have := List.pairwise_iff_getElem.1 sorted i j hil hj (by omega)
        omega

theorem scanBack_ret {t : Bytes} {p : I32} {want : I64} {n : Nat} {ts : I64} {res : I64 × I64} {lg : List Record} {w w' : World} {tr : List Ev}
    (h : Exec w (scanBack t p want n ts) tr w' (.ret res)) (hlg : ∃ more, w.log t p = lg ++ more) (hn : n ≤ lg.length) :
    ∃ k, res.1 = BitVec.ofNat 64 k ∧ k ≤ n ∧ (∀ i r, k ≤ i → i < n → lg[i]? = some r → want.toInt ≤ r.timestamp.toInt) ∧
      (∀ j r, j + 1 = k → lg[j]? = some r → r.timestamp.toInt < want.toInt ∧ res.2 = r.timestamp) ∧
      (k = 0 → res.2 = if n = 0 then ts else (lg[0]?.map (·.timestamp)).getD 0) := by
  induction n generalizing w tr ts with
  | zero =>
    obtain ⟨e, _⟩ := exec_ret_inv h
    cases e
    exact ⟨0, rfl, Nat.le_refl _, (by intro i r _ h; omega), (by intro j r h; omega), fun _ => by simp⟩
  | succ n ih =>
    obtain ⟨t1, w1, r1, w2, t2, h1, s1, h2, rfl⟩ := exec_act_ret h
    obtain ⟨kp, hk, rfl, hr⟩ := s1
    obtain ⟨more, hm⟩ := hlg
    have hlog : w2.log t p = kp.records := by simp [World.log, hk]
    have hpre : ∃ more, w2.log t p = lg ++ more := ⟨more ++ Spec.posts (effects t1) t p, by rw [h1.1.log t p, hm, List.append_assoc]⟩
    have hget : kp.records[n]? = lg[n]? := by
      obtain ⟨m, hm⟩ := hpre
      rw [← hlog, hm, List.getElem?_append_left (by omega)]
    have hsome : lg[n]? = some lg[n] := List.getElem?_eq_getElem (by omega)
    have hr' : r1 = some lg[n] := by
      rw [hr, if_neg (by omega), Int.toNat_natCast, hget, hsome]
    subst hr'
    dsimp only at h2
    by_cases hlt : lg[n].timestamp.toInt < want.toInt
    · rw [if_pos hlt] at h2
      obtain ⟨e, _⟩ := exec_ret_inv h2
      cases e
      refine ⟨n + 1, rfl, Nat.le_refl _, (by intro i r h1 h2; omega), ?_, by intro h; omega⟩
      intro j r hj hrec
      obtain rfl : j = n := by omega
      rw [hsome] at hrec; cases hrec
      exact ⟨hlt, rfl⟩
    · rw [if_neg hlt] at h2
      obtain ⟨k, e1, e2, e3, e4, e5⟩ := ih h2 hpre (by omega)
      refine ⟨k, e1, by omega, ?_, e4, ?_⟩
      · intro i r hki hi hrec
        by_cases e : i = n
        · subst e; rw [hsome] at hrec; cases hrec; omega
        · exact e3 i r hki (by omega) hrec
      · intro hk0
        rw [e5 hk0]
        by_cases e : n = 0
        · subst e; rw [if_pos rfl, if_neg (by omega), hsome]; rfl
        · rw [if_neg e, if_neg (by omega)]

/-- The answer to one requested partition. `T` is the requested timestamp. -/
def ListAnswered (w : World) (tr : List Ev) (w' : World) (topic : Bytes) (qp : ListOffsetsPartition) (rp : ListOffsetsRespPartition) : Prop :=
  rp.partitionIndex = qp.partitionIndex ∧
  ((rp.errorCode = 3 ∧ rp.timestamp = 0 ∧ rp.offset = 0 ∧ Moment w tr w' fun wm => ¬ wm.hasPartition topic qp.partitionIndex) ∨
   (rp.errorCode = 0 ∧ Moment w tr w' fun wm => wm.hasPartition topic qp.partitionIndex ∧
      let log := wm.log topic qp.partitionIndex
      let T := qp.timestamp.toInt
      (T = -1 → rp.offset = BitVec.ofNat 64 log.length ∧ ∃ ns, w.clock ≤ ns ∧ ns ≤ w'.clock ∧ rp.timestamp = BitVec.ofInt 64 (ns / 1000000)) ∧
      (T = -2 → rp.offset = 0 ∧ rp.timestamp = (log[0]?.map (·.timestamp)).getD 0) ∧
      (T ≠ -1 → T ≠ -2 → ∃ k, rp.offset = BitVec.ofNat 64 k ∧ TimeOffset log T k ∧
        (k = 0 → rp.timestamp = (log[0]?.map (·.timestamp)).getD 0) ∧ ∀ j r, j + 1 = k → log[j]? = some r → rp.timestamp = r.timestamp)))

theorem ListAnswered.lift {w wa wb w' : World} {t0 t t1 : List Ev} {n : Bytes} {qp : ListOffsetsPartition} {rp : ListOffsetsRespPartition}
    (h0 : Steps w t0 wa) (h1 : Steps wb t1 w') (h : ListAnswered wa t wb n qp rp) : ListAnswered w (t0 ++ t ++ t1) w' n qp rp := by
  refine ⟨h.1, ?_⟩
  rcases h.2 with ⟨a, b, c, d⟩ | ⟨a, b⟩
  · exact .inl ⟨a, b, c, d.lift h0 h1⟩
  · refine .inr ⟨a, (b.mono ?_).lift h0 h1⟩
    rintro wm ⟨c, d, e⟩
    refine ⟨c, ?_, e⟩
    intro hT
    obtain ⟨d1, ns, d2, d3, d4⟩ := d hT
    exact ⟨d1, ns, Int.le_trans h0.clock d2, Int.le_trans d3 h1.clock, d4⟩

theorem listOffsetsFound_ret {n : Bytes} {qp : ListOffsetsPartition} {rp : ListOffsetsRespPartition} {w w' : World} {tr : List Ev}
    (h : Exec w (listOffsetsFound n qp) tr w' (.ret rp)) (hp : w.hasPartition n qp.partitionIndex) : ListAnswered w tr w' n qp rp := by
  unfold listOffsetsFound at h
  dsimp only at h
  by_cases e1 : qp.timestamp = -1
  · rw [if_pos e1] at h
    obtain ⟨t1, w1, r1, w2, t2, h1, s1, h2, rfl⟩ := exec_act_ret h
    obtain ⟨t3, w3, r3, w4, t4, h3, s3, h4, rfl⟩ := exec_act_ret h2
    obtain ⟨e, h5⟩ := exec_ret_inv h4
    cases e
    have hc1 := h1.1.clock
    have hc3 := step_clock s1
    have hc2 := (h3.1.append (.cons ⟨true, _, r3⟩ s3 h5.1)).clock
    have s1' := s1
    have s3' := s3
    obtain ⟨rfl, hr1⟩ := s1
    obtain ⟨kp, hk, rfl, rfl⟩ := s3
    have hr1' : (r1 : Int) = w2.clock := hr1
    refine ⟨rfl, .inr ⟨rfl, t1 ++ ⟨true, .now, r1⟩ :: t3, _, w4, by simp, h1.1.append (.cons _ s1' h3.1), .cons ⟨true, _, _⟩ s3' h5.1, ?_, ?_, ?_, ?_⟩⟩
    · show (w4.ds.part? _ _).isSome
      rw [hk]; rfl
    · intro _
      refine ⟨by simp [World.log, hk], w2.clock, hc1, hc2, ?_⟩
      show unixMilli r1 = _
      rw [hr1']; rfl
    · intro e; rw [e1] at e; exact absurd e (by decide)
    · intro e; rw [e1] at e; exact absurd (by decide) e
  · rw [if_neg e1] at h
    have e1' : qp.timestamp.toInt ≠ -1 := fun e => e1 (BitVec.eq_of_toInt_eq e)
    by_cases e2 : qp.timestamp = -2
    · rw [if_pos e2] at h
      obtain ⟨t1, w1, r1, w2, t2, h1, s1, h2, rfl⟩ := exec_act_ret h
      have s1' := s1
      obtain ⟨kp, hk, rfl, rfl⟩ := s1
      by_cases e3 : kp.records.length = 0
      · rw [if_pos e3] at h2
        obtain ⟨e, h5⟩ := exec_ret_inv h2
        cases e
        refine ⟨rfl, .inr ⟨rfl, t1, _, w2, rfl, h1.1, .cons ⟨true, _, _⟩ s1' h5.1, ?_, ?_, ?_, ?_⟩⟩
        · show (w2.ds.part? _ _).isSome
          rw [hk]; rfl
        · intro e; exact absurd e e1'
        · intro _
          refine ⟨rfl, ?_⟩
          simp [World.log, hk, List.length_eq_zero_iff.1 e3]
        · intro _ e; rw [e2] at e; exact absurd (by decide) e
      · rw [if_neg e3] at h2
        obtain ⟨t3, w3, r3, w4, t4, h3, s3, h4, rfl⟩ := exec_act_ret h2
        have s3' := s3
        obtain ⟨kp2, hk2, rfl, hr3⟩ := s3
        have hlog2 : w2.log n qp.partitionIndex = kp.records := by simp [World.log, hk]
        have hlog4 : w4.log n qp.partitionIndex = kp2.records := by simp [World.log, hk2]
        have h0 : kp2.records[0]? = some (kp.records[0]'(by omega)) := by
          rw [← hlog4, h3.1.log, hlog2, List.getElem?_append_left (by omega), List.getElem?_eq_getElem]
        cases hr3' : r3 with
        | none => rw [hr3'] at h4; obtain ⟨e, _⟩ := exec_panic_inv h4; cases e
        | some msg =>
          rw [hr3'] at h4
          obtain ⟨e, h5⟩ := exec_ret_inv h4
          cases e
          refine ⟨rfl, .inr ⟨rfl, t1 ++ ⟨true, .numRecords n qp.partitionIndex, kp.records.length⟩ :: t3,
            ⟨true, .recordAt n qp.partitionIndex 0, r3⟩ :: t4, w4, by simp [hr3'], h1.1.append (.cons _ s1' h3.1), .cons ⟨true, _, _⟩ s3' h5.1, ?_, ?_, ?_, ?_⟩⟩
          · show (w4.ds.part? _ _).isSome
            rw [hk2]; rfl
          · intro e; exact absurd e e1'
          · intro _
            refine ⟨rfl, ?_⟩
            rw [hr3] at hr3'
            rw [if_neg (by omega)] at hr3'
            have hr3'' : kp2.records[0]? = some msg := hr3'
            dsimp only
            rw [hlog4, hr3'']; rfl
          · intro _ e; rw [e2] at e; exact absurd (by decide) e
    · rw [if_neg e2] at h
      have e2' : qp.timestamp.toInt ≠ -2 := fun e => e2 (BitVec.eq_of_toInt_eq e)
      obtain ⟨t1, w1, r1, w2, t2, h1, s1, h2, rfl⟩ := exec_act_ret h
      have s1' := s1
      obtain ⟨kp, hk, rfl, rfl⟩ := s1
      obtain ⟨res, h3, rfl⟩ := exec_map_ret h2
      have hlog2 : w2.log n qp.partitionIndex = kp.records := by simp [World.log, hk]
      obtain ⟨k, k1, k2, k3, k4, k5⟩ := scanBack_ret h3 ⟨[], by rw [List.append_nil]; exact hlog2⟩ (Nat.le_refl _)
      obtain ⟨off, ts⟩ := res
      refine ⟨rfl, .inr ⟨rfl, t1, _, w2, rfl, h1.1, .cons ⟨true, _, _⟩ s1' h3.steps, ?_, ?_, ?_, ?_⟩⟩
      · show (w2.ds.part? _ _).isSome
        rw [hk]; rfl
      · intro e; exact absurd e e1'
      · intro e; exact absurd e e2'
      · intro _ _
        dsimp only
        rw [hlog2]
        refine ⟨k, k1, ⟨k2, ?_, fun j r hj hr => (k4 j r hj hr).1⟩, ?_, fun j r hj hr => (k4 j r hj hr).2⟩
        · intro i r hi hr
          exact k3 i r hi (List.getElem?_eq_some_iff.1 hr).1 hr
        · intro hk0
          have := k5 hk0
          by_cases e0 : kp.records.length = 0
          · rw [if_pos e0] at this
            rw [List.length_eq_zero_iff.1 e0]
            exact this
          · rw [if_neg e0] at this
            exact this

theorem listOffsets_answers {q : ListOffsetsRequest} {resp : ListOffsetsResponse} {w w' : World} {tr : List Ev}
    (h : Exec w (listOffsets q) tr w' (.ret resp)) :
    List.Forall₂ (fun (qt : ListOffsetsTopic) (rt : ListOffsetsRespTopic) => rt.name = qt.name ∧
      List.Forall₂ (ListAnswered w tr w' qt.name) qt.partitions rt.partitions) q.topics resp.topics := by
  obtain ⟨ts, h0, rfl⟩ := exec_map_ret h
  refine List.Forall₂.imp ?_ (forEach_ret h0)
  rintro qt rt ⟨t0, t, t1, wa, wb, rfl, ha, hx, hb⟩
  obtain ⟨t2, w1, kt, w2, t3, h1, s1, h2, rfl⟩ := exec_act_ret hx
  obtain ⟨ps, h3, rfl⟩ := exec_map_ret h2
  refine ⟨rfl, ?_⟩
  dsimp only
  refine List.Forall₂.imp ?_ (forEach_ret h3)
  rintro qp rp ⟨t4, t5, t6, wc, wd, rfl, hc, hy, hd⟩
  have s1' := s1
  obtain ⟨rfl, hkt⟩ := s1
  have pre : Steps wa (t2 ++ ⟨true, .getTopic qt.name, kt⟩ :: t4) wc := h1.1.append (.cons ⟨true, _, _⟩ s1' hc)
  have key : ListAnswered wa (t2 ++ ⟨true, .getTopic qt.name, kt⟩ :: (t4 ++ t5 ++ t6)) wb qt.name qp rp := by
    unfold listOffsetsPartition at hy
    cases kt with
    | true =>
      rw [if_pos rfl] at hy
      obtain ⟨t7, w7, r7, w8, t8, h7, s7, h8, rfl⟩ := exec_act_ret hy
      have s7' := s7
      obtain ⟨_, rfl, hr7⟩ := s7
      have key2 : ListAnswered w8 (⟨true, .getPartition qt.name qp.partitionIndex, r7⟩ :: t8) wd qt.name qp rp := by
        cases r7 with
        | true =>
          have hp : w8.hasPartition qt.name qp.partitionIndex := hr7.symm
          have := (listOffsetsFound_ret h8 hp).lift (Steps.cons ⟨true, .getPartition qt.name qp.partitionIndex, true⟩ s7' (.nil _)) (.nil wd)
          simpa using this
        | false =>
          obtain ⟨e, h9⟩ := exec_ret_inv h8
          cases e
          refine ⟨rfl, .inl ⟨rfl, rfl, rfl, [], _, w8, rfl, .nil _, .cons _ s7' h9.1, ?_⟩⟩
          intro hp
          have : w8.ds.getPartition qt.name qp.partitionIndex = true := hp
          rw [← hr7] at this; cases this
      have := key2.lift (pre.append h7.1) hd
      simpa using this
    | false =>
      obtain ⟨e, h6⟩ := exec_ret_inv hy
      cases e
      refine ⟨rfl, .inl ⟨rfl, rfl, rfl, t2, _, w2, rfl, h1.1, .cons _ s1' ((hc.append h6.1).append hd), ?_⟩⟩
      intro hp
      have : w2.ds.getTopic qt.name = true := hp.hasTopic
      rw [← hkt] at this; cases this
  exact key.lift ha hb

/-- C29: every requested topic and partition is answered in request order. An unknown partition gets code 3. Otherwise, for some moment of
the call: timestamp -1 gives the number of records; -2 gives offset 0 and the first record's timestamp (0 when there is no record). -/
theorem C29_latest_earliest {q : ListOffsetsRequest} {resp : ListOffsetsResponse} {w w' : World} {tr : List Ev}
    (h : Exec w (listOffsets q) tr w' (.ret resp)) :
    List.Forall₂ (fun (qt : ListOffsetsTopic) (rt : ListOffsetsRespTopic) => rt.name = qt.name ∧
      List.Forall₂ (fun (qp : ListOffsetsPartition) (rp : ListOffsetsRespPartition) =>
        rp.partitionIndex = qp.partitionIndex ∧
        ((rp.errorCode = 3 ∧ Moment w tr w' fun wm => ¬ wm.hasPartition qt.name qp.partitionIndex) ∨
         (rp.errorCode = 0 ∧ Moment w tr w' fun wm => wm.hasPartition qt.name qp.partitionIndex ∧
           (qp.timestamp.toInt = -1 → rp.offset = BitVec.ofNat 64 (wm.log qt.name qp.partitionIndex).length) ∧
           (qp.timestamp.toInt = -2 → rp.offset = 0 ∧ rp.timestamp = ((wm.log qt.name qp.partitionIndex)[0]?.map (·.timestamp)).getD 0))))
        qt.partitions rt.partitions) q.topics resp.topics := by
  refine List.Forall₂.imp ?_ (listOffsets_answers h)
  rintro qt rt ⟨h1, h2⟩
  refine ⟨h1, List.Forall₂.imp ?_ h2⟩
  rintro qp rp ⟨h3, h4⟩
  refine ⟨h3, ?_⟩
  rcases h4 with ⟨a, _, _, b⟩ | ⟨a, b⟩
  · exact .inl ⟨a, b⟩
  · exact .inr ⟨a, b.mono fun wm hm => ⟨hm.1, fun e => (hm.2.1 e).1, hm.2.2.1⟩⟩

/-- C30: for any other timestamp `T` on an existing partition, the offset returned is the `TimeOffset` of `T` in the log at some moment of
the call (see `C30_unique` and `C30_sorted` for what that is). -/
theorem C30_by_timestamp {q : ListOffsetsRequest} {resp : ListOffsetsResponse} {w w' : World} {tr : List Ev}
    (h : Exec w (listOffsets q) tr w' (.ret resp)) :
    List.Forall₂ (fun (qt : ListOffsetsTopic) (rt : ListOffsetsRespTopic) =>
      List.Forall₂ (fun (qp : ListOffsetsPartition) (rp : ListOffsetsRespPartition) =>
        rp.errorCode = 0 → qp.timestamp.toInt ≠ -1 → qp.timestamp.toInt ≠ -2 →
          Moment w tr w' fun wm => ∃ k, rp.offset = BitVec.ofNat 64 k ∧ TimeOffset (wm.log qt.name qp.partitionIndex) qp.timestamp.toInt k)
        qt.partitions rt.partitions) q.topics resp.topics := by
  refine List.Forall₂.imp ?_ (listOffsets_answers h)
  rintro qt rt ⟨h1, h2⟩
  refine List.Forall₂.imp ?_ h2
  rintro qp rp ⟨h3, h4⟩ he e1 e2
  rcases h4 with ⟨a, _, _, b⟩ | ⟨a, b⟩
  · rw [he] at a; cases a
  · exact b.mono fun wm hm => by
      obtain ⟨k, k1, k2, _⟩ := hm.2.2.2 e1 e2
      exact ⟨k, k1, k2⟩

/-- C31, in the case that holds: when the offset returned is 0 and there is a record at 0, the timestamp reported is that record's.
Otherwise (offset `k > 0`) it is the timestamp of the record *before* the returned offset, which contradicts C31 (`C31_false`). -/
theorem C31_reported_timestamp_partial {q : ListOffsetsRequest} {resp : ListOffsetsResponse} {w w' : World} {tr : List Ev}
    (h : Exec w (listOffsets q) tr w' (.ret resp)) :
    List.Forall₂ (fun (qt : ListOffsetsTopic) (rt : ListOffsetsRespTopic) =>
      List.Forall₂ (fun (qp : ListOffsetsPartition) (rp : ListOffsetsRespPartition) =>
        rp.errorCode = 0 → qp.timestamp.toInt ≠ -1 → qp.timestamp.toInt ≠ -2 →
          Moment w tr w' fun wm => ∃ k, rp.offset = BitVec.ofNat 64 k ∧
            (∀ r, k = 0 → (wm.log qt.name qp.partitionIndex)[0]? = some r → rp.timestamp = r.timestamp) ∧
            ∀ j r, j + 1 = k → (wm.log qt.name qp.partitionIndex)[j]? = some r → rp.timestamp = r.timestamp)
        qt.partitions rt.partitions) q.topics resp.topics := by
  refine List.Forall₂.imp ?_ (listOffsets_answers h)
  rintro qt rt ⟨h1, h2⟩
  refine List.Forall₂.imp ?_ h2
  rintro qp rp ⟨h3, h4⟩ he e1 e2
  rcases h4 with ⟨a, _, _, b⟩ | ⟨a, b⟩
  · rw [he] at a; cases a
  · exact b.mono fun wm hm => by
      obtain ⟨k, k1, _, k3, k4⟩ := hm.2.2.2 e1 e2
      exact ⟨k, k1, fun r hk hr => by rw [k3 hk, hr]; rfl, k4⟩

/-- ListOffsets never crashes, even while records are posted. -/
theorem C29_never_panics {q : ListOffsetsRequest} {w w' : World} {tr : List Ev} : ¬ Exec w (listOffsets q) tr w' .panic := by
  intro h
  obtain ⟨qt, _, t0, t, wa, _, hx⟩ := forEach_panic (exec_map_panic h)
  obtain ⟨t2, w1, kt, w2, t3, h1, s1, h2, rfl⟩ := exec_act_panic hx
  obtain ⟨qp, _, t4, t5, wc, _, hy⟩ := forEach_panic (exec_map_panic h2)
  unfold listOffsetsPartition at hy
  cases kt with
  | false => exact exec_ret_panic hy
  | true =>
    rw [if_pos rfl] at hy
    obtain ⟨t6, w6, r6, w7, t7, h7, s7, h8, rfl⟩ := exec_act_panic hy
    cases r6 with
    | false => exact exec_ret_panic h8
    | true =>
      rw [if_pos rfl] at h8
      unfold listOffsetsFound at h8
      dsimp only at h8
      split at h8
      · obtain ⟨a1, a2, a3, a4, a5, a6, a7, a8, rfl⟩ := exec_act_panic h8
        obtain ⟨b1, b2, b3, b4, b5, b6, b7, b8, rfl⟩ := exec_act_panic a8
        exact exec_ret_panic b8
      · split at h8
        · obtain ⟨a1, a2, a3, a4, a5, a6, a7, a8, rfl⟩ := exec_act_panic h8
          obtain ⟨kp, hk, rfl, rfl⟩ := a7
          split at a8
          · exact exec_ret_panic a8
          · next hne' =>
            have hne : kp.records.length ≠ 0 := hne'
            obtain ⟨b1, b2, b3, b4, b5, b6, b7, b8, rfl⟩ := exec_act_panic a8
            obtain ⟨kp2, hk2, rfl, hb⟩ := b7
            have e1 : a4.log qt.name qp.partitionIndex = kp.records := by simp [World.log, hk]
            have e2 : b4.log qt.name qp.partitionIndex = kp2.records := by simp [World.log, hk2]
            have h0 : kp2.records[0]? = some (kp.records[0]'(by omega)) := by
              rw [← e2, b6.1.log, e1, List.getElem?_append_left (by omega), List.getElem?_eq_getElem]
            have hb' : b3 = some (kp.records[0]'(by omega)) := by rw [hb, if_neg (by omega)]; exact h0
            rw [hb'] at b8
            exact exec_ret_panic b8
        · obtain ⟨a1, a2, a3, a4, a5, a6, a7, a8, rfl⟩ := exec_act_panic h8
          obtain ⟨kp, hk, rfl, rfl⟩ := a7
          have a9 := exec_map_panic a8
          have e1 : a4.log qt.name qp.partitionIndex = kp.records := by simp [World.log, hk]
          have key : ∀ (n : Nat) (ts : I64) (w : World) (tr : List Ev), n ≤ (w.log qt.name qp.partitionIndex).length →
              ¬ Exec w (scanBack qt.name qp.partitionIndex qp.timestamp n ts) tr w' .panic := by
            intro n
            induction n with
            | zero => intro ts w tr _ h; exact exec_ret_panic h
            | succ n ih =>
              intro ts w tr hn h
              obtain ⟨b1, b2, b3, b4, b5, b6, b7, b8, rfl⟩ := exec_act_panic h
              obtain ⟨kp2, hk2, rfl, hb⟩ := b7
              have e2 : b4.log qt.name qp.partitionIndex = kp2.records := by simp [World.log, hk2]
              have hlen : n < kp2.records.length := by
                rw [← e2, b6.1.log, List.length_append]; omega
              rw [if_neg (by omega), Int.toNat_natCast, List.getElem?_eq_getElem hlen] at hb
              rw [hb] at b8
              dsimp only at b8
              split at b8
              · exact exec_ret_panic b8
              · refine ih _ _ _ ?_ b8
                rw [e2]; omega
          exact key _ _ _ _ (by rw [e1]; exact Nat.le_refl _) a9

/-- A partition with records at times 10 and 30, and (at position 2) 20. -/
def exLog : World := (postCalls [⟨[116], 0, none, some [1], some ([], 10000000)⟩, ⟨[116], 0, none, some [2], some ([], 30000000)⟩] |>.run (go 8) (World.init 5000000)).2.1

/-- Example: latest, earliest, by time (20, 5 and 40), an unknown partition. -/
example : ∃ tr w', Exec exLog (listOffsets ⟨-1, [⟨[116], [⟨0, -1⟩, ⟨0, -2⟩, ⟨0, 5⟩, ⟨0, 40⟩, ⟨9, 0⟩]⟩]⟩) tr w'
    (.ret ⟨[⟨[116], [⟨0, 0, 5, 2⟩, ⟨0, 0, 10, 0⟩, ⟨0, 0, 10, 0⟩, ⟨0, 0, 30, 2⟩, ⟨9, 3, 0, 0⟩]⟩]⟩) :=
  ⟨_, _, Prog.run_ret (sch := go 20) rfl⟩

/-- C31 is false: with records at times 10 and 30, a request for time 20 is answered with offset 1 and timestamp 10, though the record at
offset 1 has timestamp 30. -/
theorem C31_false : ∃ tr w', Exec exLog (listOffsets ⟨-1, [⟨[116], [⟨0, 20⟩]⟩]⟩) tr w' (.ret ⟨[⟨[116], [⟨0, 0, 10, 1⟩]⟩]⟩) ∧
    ((exLog.log [116] 0)[1]?.map (·.timestamp)) = some 30 :=
  ⟨_, _, Prog.run_ret (sch := go 20) rfl, by decide⟩

example : TimeOffset (exLog.log [116] 0) 20 1 := by
  have : exLog.log [116] 0 = [⟨0, 10, none, some [1], []⟩, ⟨0, 30, none, some [2], []⟩] := by decide
  rw [this]
  refine ⟨by decide, ?_, ?_⟩
  · intro i r hi hr
    match i with
    | 0 => omega
    | 1 => cases hr; decide
    | n + 2 => cases hr
  · intro j r hj hr
    obtain rfl : j = 0 := by omega
    cases hr; decide

end KM.Props
