import Verif.Props.Consumer
/-
C90: what a consumer group is told about its own commits.
-/
namespace KM.Props
open KM Spec

/-- Among the effects is no commit of the group for the partition, and none that sets the group's offset. -/
def NotMoved (t : Bytes) (p : I32) (g : Bytes) (h : List Eff) : Prop := ∀ o, .commit t p g o ∉ h ∧ .reset t p g o ∉ h

theorem NotMoved.take {t : Bytes} {p : I32} {g : Bytes} {a b : List Eff} (h : NotMoved t p g (a ++ b)) (n : Nat) : NotMoved t p g (a ++ b.take n) := fun o =>
  ⟨fun hm => (h o).1 ((List.mem_append.1 hm).elim (List.mem_append_left _) fun hm => List.mem_append_right _ (List.mem_of_mem_take hm)),
   fun hm => (h o).2 ((List.mem_append.1 hm).elim (List.mem_append_left _) fun hm => List.mem_append_right _ (List.mem_of_mem_take hm))⟩

/-- **C90**, partial: every entry of an OffsetFetch response gives the offset that follows from the commits and resets up to some moment of the request: the highest offset committed
since the last reset, or 0; and no metadata. -/
theorem C90_partial {sv : Server} {clock : Int} {k : Nat} {q : OffsetFetchRequest} {c : I32} {t1 tr : List SEv} {s1 s2 : Sys}
    (h : Exchange sv clock k (.offsetFetch q) c t1 s1 tr s2) :
    ∃ x : OffsetFetchResponse, Client.response Client.offsetFetch (sent (actsOf k tr)) = some ((c, x), []) ∧
      ∀ rt ∈ x.topics, ∀ rp ∈ rt.partitions, rp.metadata = none ∧
        ∃ n, rp.committedOffset.toInt = Spec.committed (effectsOf t1 ++ (effectsOf tr).take n) rt.name rp.partitionIndex q.groupId := by
  obtain ⟨ctx, es, h1, h2, h3⟩ := h.run
  obtain ⟨_, _, _, hs⟩ := h.serves
  obtain ⟨s0, r0, r1⟩ := hs.begins
  obtain ⟨hist, hr, he⟩ := reachedBy (r0.append (.cons r1 (.nil _))) ctx
  obtain ⟨x, ta, tb, w1, rfl, h4, h5, h6⟩ := offsetFetch_request hr h1
  obtain ⟨fl, f1, f2, f3, f4, f5⟩ := C26_offset_fetch_exact hr h4
  refine ⟨x, by rw [← h2]; exact h6, ?_⟩
  intro rt hrt rp hrp
  obtain ⟨n, hn⟩ := List.getElem?_of_mem hrp
  obtain ⟨a, ha, g1, g2, gm, u0, u1, wm, rfl, g3, g4, g5⟩ := forall₂_get (f5 rt hrt) hn
  obtain ⟨⟨y, b⟩, hy, e⟩ := List.mem_map.1 (List.mem_of_getElem? ha)
  simp only at e
  subst e
  obtain ⟨hy, hb⟩ := List.mem_filter.1 hy
  simp only [Bool.and_eq_true, decide_eq_true_eq] at hb
  obtain ⟨rfl, hname⟩ := hb
  refine ⟨gm, (effects u0).length, ?_⟩
  have hh : effectsOf t1 = effects hist := by
    rw [he, effectsOf, effectsOf, List.filterMap_append]
    exact (List.append_nil _).symm
  rw [g5, g3.committed, ← h3, List.append_assoc, effects_append, List.take_left, g1, ← hname, hr.committed, hh]
  unfold Spec.committed
  rw [Spec.committedFrom_append]

theorem committed_last {past a b : List Eff} {t : Bytes} {p : I32} {g : Bytes} {o : Int} (h : past = a ++ .commit t p g o :: b)
    (hb : NotMoved t p g b) : Spec.committed past t p g = max (Spec.committed a t p g) o := by
  rw [h]
  unfold Spec.committed
  rw [Spec.committedFrom_append, Spec.committedFrom, if_pos ⟨rfl, rfl, rfl⟩, committedFrom_quiet hb]

/-- What an OffsetFetch of group `g` reads for partition (`t`, `p`): offset and metadata. -/
def Reads (k : Nat) (c : I32) (tr : List SEv) (t : Bytes) (p : I32) (offset : I64) (metadata : Option Bytes) : Prop :=
  ∃ (x : OffsetFetchResponse), Client.response Client.offsetFetch (sent (actsOf k tr)) = some ((c, x), []) ∧ ∃ rt ∈ x.topics, rt.name = t ∧
    ∃ rp ∈ rt.partitions, rp.partitionIndex = p ∧ rp.committedOffset = offset ∧ rp.metadata = metadata

theorem Reads.of {sv : Server} {clock : Int} {k : Nat} {q : OffsetFetchRequest} {c : I32} {t1 tr : List SEv} {s1 s2 : Sys}
    (h : Exchange sv clock k (.offsetFetch q) c t1 s1 tr s2) {t : Bytes} {p : I32} {offset : I64} {metadata : Option Bytes} (hr : Reads k c tr t p offset metadata) :
    metadata = none ∧ ∃ n, offset.toInt = Spec.committed (effectsOf t1 ++ (effectsOf tr).take n) t p q.groupId := by
  obtain ⟨x, h1, h2⟩ := C90_partial h
  obtain ⟨y, e1, rt, hrt, rfl, rp, hrp, rfl, rfl, rfl⟩ := hr
  rw [e1] at h1; cases h1
  exact h2 rt hrt rp hrp

/-- **C90**, partial: a group that reads its offset, after a commit and with no other commit or reset for it since, reads the committed offset if it is at least as high as the one before,
and else the one before; and never the metadata committed with it. -/
theorem C90_last_partial {sv : Server} {clock : Int} {k : Nat} {q : OffsetFetchRequest} {c : I32} {t1 tr : List SEv} {s1 s2 : Sys}
    (h : Exchange sv clock k (.offsetFetch q) c t1 s1 tr s2) {t : Bytes} {p : I32} {offset : I64} {metadata : Option Bytes} (hr : Reads k c tr t p offset metadata)
    {a b : List Eff} {o : Int} (ha : effectsOf t1 = a ++ .commit t p q.groupId o :: b) (hb : NotMoved t p q.groupId (b ++ effectsOf tr)) :
    metadata = none ∧ offset.toInt = max (Spec.committed a t p q.groupId) o := by
  obtain ⟨h1, n, h2⟩ := hr.of h
  refine ⟨h1, h2.trans (committed_last (b := b ++ (effectsOf tr).take n) (by rw [ha]; simp) (hb.take n))⟩

/-- **C90** is false of a group that has committed nothing: it reads offset 0, not -1, as if it had committed 0. -/
theorem C90_none {sv : Server} {clock : Int} {k : Nat} {q : OffsetFetchRequest} {c : I32} {t1 tr : List SEv} {s1 s2 : Sys}
    (h : Exchange sv clock k (.offsetFetch q) c t1 s1 tr s2) {t : Bytes} {p : I32} {offset : I64} {metadata : Option Bytes} (hr : Reads k c tr t p offset metadata)
    (hn : NotMoved t p q.groupId (effectsOf t1 ++ effectsOf tr)) : metadata = none ∧ offset = 0 := by
  obtain ⟨h1, n, h2⟩ := hr.of h
  refine ⟨h1, BitVec.eq_of_toInt_eq (h2.trans ?_)⟩
  unfold Spec.committed
  rw [committedFrom_quiet (hn.take n)]
  rfl

/-! ### The property is false -/

/-- The group commits an offset with metadata. -/
def askCommitAt (o : I64) : Request := .offsetCommit ⟨[103], 1, [109], -1, [⟨[116], [⟨0, o, some [120]⟩]⟩]⟩
theorem askCommitAt_wf (o : I64) : (askCommitAt o).WellFormed := by
  unfold askCommitAt Request.WellFormed ShortList ShortStr
  exact ⟨by simp, by simp, by simp, by simp⟩

/-- The mock after the group has committed 5. -/
def told1 : Sys := stateAfter [.conn 0] (answered 0 6 (askCommitAt 5) 1 oneRecord)
/-- The mock after the group has also committed 3. -/
def told2 : Sys := stateAfter [.conn 0] (answered 0 6 (askCommitAt 3) 2 told1)

/-- The group is told that its commit has been done. -/
def commitDone : CommitResponse := ⟨[⟨[116], [⟨0, 0⟩]⟩]⟩

set_option synthInstance.maxSize 1000 in
set_option maxRecDepth 100000 in
/-- **C90** is false: a group commits 5 and then 3, both with metadata; the mock answers both without error; the group asks for its offset and reads 5 without metadata. -/
theorem C90_false : ∃ ta tb tc,
    Exchange ⟨9092, []⟩ 0 0 (askCommitAt 5) 1 ta (taken 0 (askCommitAt 5) 1 oneRecord) (during 0 6 (askCommitAt 5) 1 oneRecord) (answered 0 6 (askCommitAt 5) 1 oneRecord) ∧
    Client.response Client.commit (sent (actsOf 0 (during 0 6 (askCommitAt 5) 1 oneRecord))) = some ((1, commitDone), []) ∧
    Exchange ⟨9092, []⟩ 0 0 (askCommitAt 3) 2 tb (taken 0 (askCommitAt 3) 2 told1) (during 0 6 (askCommitAt 3) 2 told1) (answered 0 6 (askCommitAt 3) 2 told1) ∧
    Client.response Client.commit (sent (actsOf 0 (during 0 6 (askCommitAt 3) 2 told1))) = some ((2, commitDone), []) ∧
    Exchange ⟨9092, []⟩ 0 0 askOffset 3 tc (taken 0 askOffset 3 told2) (during 0 9 askOffset 3 told2) (answered 0 9 askOffset 3 told2) ∧
    Reads 0 3 (during 0 9 askOffset 3 told2) [116] 0 5 none := by
  obtain ⟨_, h0⟩ := oneRecord_run
  obtain ⟨_, h1⟩ := answered_run h0 0 6 (askCommitAt 5) 1
  obtain ⟨_, h2⟩ := answered_run h1 0 6 (askCommitAt 3) 2
  exact ⟨_, _, _, exchange_of_play h0 0 6 (askCommitAt 5) 1 (askCommitAt_wf _) (by decide +kernel), by decide +kernel,
    exchange_of_play h1 0 6 (askCommitAt 3) 2 (askCommitAt_wf _) (by decide +kernel), by decide +kernel,
    exchange_of_play h2 0 9 askOffset 3 askOffset_wf (by decide +kernel),
    ⟨⟨[⟨[116], [⟨0, 5, none, 0⟩]⟩]⟩, by decide +kernel, _, List.mem_cons_self, rfl, _, List.mem_cons_self, rfl, rfl, rfl⟩⟩

/-! ### Cases that meet the hypotheses -/

deriving instance DecidableEq for Spec.Effect

/-- What happens until connection 0 has been answered and waits for the next request. -/
def episode (n : Nat) (req : Request) (c : I32) (s : Sys) : List SEv :=
  eventsOf (asks 0 req c) s ++ eventsOf [.conn 0] (stateAfter (asks 0 req c) s) ++ during 0 n req c s ++ eventsOf [.conn 0] (answered 0 n req c s)

theorem episode_run (n : Nat) (req : Request) (c : I32) (s : Sys) : Sys.Run s (episode n req c s) (stateAfter [.conn 0] (answered 0 n req c s)) :=
  (((stateAfter_run (asks 0 req c) s).append (stateAfter_run [.conn 0] _)).append (stateAfter_run (List.replicate n (.conn 0)) _)).append (stateAfter_run [.conn 0] _)

/-- What happens before the group asks for its offset. -/
def told2Events : List SEv := eventsOf (bootAndPost ++ accepts 0) (Sys.new ⟨9092, []⟩ 0) ++ episode 6 (askCommitAt 5) 1 oneRecord ++ episode 6 (askCommitAt 3) 2 told1

theorem told2_run : Sys.Run (Sys.new ⟨9092, []⟩ 0) told2Events told2 :=
  ((stateAfter_run (bootAndPost ++ accepts 0) (Sys.new ⟨9092, []⟩ 0)).append (episode_run 6 (askCommitAt 5) 1 oneRecord)).append (episode_run 6 (askCommitAt 3) 2 told1)

set_option synthInstance.maxSize 1000 in
set_option maxRecDepth 100000 in
/-- The hypotheses of `C90_last_partial`: the last commit was of 3, the one before of 5. -/
example : ∃ t1 a, Exchange ⟨9092, []⟩ 0 0 askOffset 3 t1 (taken 0 askOffset 3 told2) (during 0 9 askOffset 3 told2) (answered 0 9 askOffset 3 told2) ∧
    Reads 0 3 (during 0 9 askOffset 3 told2) [116] 0 5 none ∧ effectsOf t1 = a ++ .commit [116] 0 [103] 3 :: [] ∧ Spec.committed a [116] 0 [103] = 5 ∧
    NotMoved [116] 0 [103] ([] ++ effectsOf (during 0 9 askOffset 3 told2)) := by
  have he : effectsOf (during 0 9 askOffset 3 told2) = [] := by decide +kernel
  refine ⟨told2Events ++ eventsOf (asks 0 askOffset 3) told2, [.post [116] 0 ⟨0, 0, none, some [1, 2], []⟩, .commit [116] 0 [103] 5], exchange_of_play told2_run 0 9 askOffset 3 askOffset_wf (by decide +kernel),
    ⟨⟨[⟨[116], [⟨0, 5, none, 0⟩]⟩]⟩, by decide +kernel, _, List.mem_cons_self, rfl, _, List.mem_cons_self, rfl, rfl, rfl⟩, by decide +kernel, by decide, ?_⟩
  rw [he]
  exact fun o => ⟨nofun, nofun⟩

set_option synthInstance.maxSize 1000 in
set_option maxRecDepth 100000 in
/-- The hypotheses of `C90_none`: the group asks without having committed anything. -/
example : ∃ t1, Exchange ⟨9092, []⟩ 0 0 askOffset 7 t1 (taken 0 askOffset 7 oneRecord) (during 0 9 askOffset 7 oneRecord) (answered 0 9 askOffset 7 oneRecord) ∧
    Reads 0 7 (during 0 9 askOffset 7 oneRecord) [116] 0 0 none ∧ NotMoved [116] 0 [103] (effectsOf t1 ++ effectsOf (during 0 9 askOffset 7 oneRecord)) := by
  have h0 : Sys.Run _ _ oneRecord := stateAfter_run (bootAndPost ++ accepts 0) (Sys.new ⟨9092, []⟩ 0)
  have he : effectsOf (eventsOf (bootAndPost ++ accepts 0) (Sys.new ⟨9092, []⟩ 0) ++ eventsOf (asks 0 askOffset 7) oneRecord) ++ effectsOf (during 0 9 askOffset 7 oneRecord) =
      [.post [116] 0 ⟨0, 0, none, some [1, 2], []⟩] := by decide +kernel
  refine ⟨_, exchange_of_play h0 0 9 askOffset 7 askOffset_wf (by decide +kernel),
    ⟨⟨[⟨[116], [⟨0, 0, none, 0⟩]⟩]⟩, by decide +kernel, _, List.mem_cons_self, rfl, _, List.mem_cons_self, rfl, rfl, rfl⟩, ?_⟩
  rw [he]
  intro o
  constructor <;> intro h <;> (cases h with | tail _ h => cases h)

end KM.Props
