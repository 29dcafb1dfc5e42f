import Verif.Props.Missing
/-
C91: Fetch reports the end of the log, and offsets that are out of range.
-/
namespace KM.Props
open KM Spec

/-- **C91**, partial: a partition is reported with error code 0, and with the number of its records at some moment of the request as high watermark, if the requested offset is
not beyond it. Missing, and false: that an offset out of range is reported (`C91_beyond`, `C91_negative`). As in C59: one partition per topic. -/
theorem C91_watermark_partial {sv : Server} {clock : Int} {k : Nat} {q : FetchRequest} {c : I32} {t1 tr : List SEv} {s1 s2 : Sys}
    (h : Exchange sv clock k (.fetch q) c t1 s1 tr s2) (single : ∀ t ∈ q.topics, ∃ p, t.partitions = [p])
    (hs : ∀ t p, ∀ r ∈ (s2.view 0).log t p, wireSize r < 2 ^ 31) (hl : (sent (actsOf k tr)).length < 2 ^ 31) :
    ∃ x, Client.response Client.fetch (sent (actsOf k tr)) = some ((c, 0, x), []) ∧
      List.Forall₂ (fun (qt : FetchTopic) (rt : Bytes × List Client.FetchedPartition) => rt.1 = qt.topic ∧
        List.Forall₂ (fun (par : FetchPartition) (fp : Client.FetchedPartition) => fp.partition = par.partition ∧ fp.errorCode = 0 ∧
          (0 ≤ par.fetchOffset.toInt → par.fetchOffset.toInt ≤ ((s1.view 0).log qt.topic par.partition).length →
            ∃ n, ((s1.view 0).log qt.topic par.partition).length ≤ n ∧ n ≤ ((s2.view 0).log qt.topic par.partition).length ∧
              fp.highWatermark = BitVec.ofNat 64 n)) qt.partitions rt.2) q.topics x := by
  obtain ⟨x, h1, h2⟩ := C59_fetch_partial h single hs hl
  refine ⟨x, h1, h2.imp ?_⟩
  rintro qt rt ⟨e1, e2⟩
  refine ⟨e1, e2.imp ?_⟩
  rintro par fp ⟨e3, e4, n, e5, e6, e7, e8, _⟩
  refine ⟨e3, e4, fun h0 hb => ⟨n, e5, e6, ?_⟩⟩
  rw [e8]
  have hlen := e7.1
  rw [List.length_drop, List.length_take] at hlen
  have : par.fetchOffset.toInt + (fp.messages.length : Int) = (n : Int) := by omega
  rw [this]
  exact BitVec.ofInt_natCast ..

/-- **C91** is false of every offset beyond the end of the log: it is answered without error, without messages, and with the requested offset itself as high watermark. -/
theorem C91_beyond {sv : Server} {clock : Int} {k : Nat} {q : FetchRequest} {c : I32} {t1 tr : List SEv} {s1 s2 : Sys}
    (h : Exchange sv clock k (.fetch q) c t1 s1 tr s2) (single : ∀ t ∈ q.topics, ∃ p, t.partitions = [p])
    (hs : ∀ t p, ∀ r ∈ (s2.view 0).log t p, wireSize r < 2 ^ 31) (hl : (sent (actsOf k tr)).length < 2 ^ 31) :
    ∃ x, Client.response Client.fetch (sent (actsOf k tr)) = some ((c, 0, x), []) ∧
      List.Forall₂ (fun (qt : FetchTopic) (rt : Bytes × List Client.FetchedPartition) => rt.1 = qt.topic ∧
        List.Forall₂ (fun (par : FetchPartition) (fp : Client.FetchedPartition) => fp.partition = par.partition ∧
          (((s2.view 0).log qt.topic par.partition).length < par.fetchOffset.toInt → fp.errorCode = 0 ∧ fp.messages = [] ∧ fp.highWatermark = par.fetchOffset))
          qt.partitions rt.2) q.topics x := by
  obtain ⟨x, h1, h2⟩ := C59_fetch_partial h single hs hl
  refine ⟨x, h1, h2.imp ?_⟩
  rintro qt rt ⟨e1, e2⟩
  refine ⟨e1, e2.imp ?_⟩
  rintro par fp ⟨e3, e4, n, e5, e6, e7, e8, _⟩
  refine ⟨e3, fun hb => ?_⟩
  have hlen := e7.1
  rw [List.length_drop, List.length_take] at hlen
  have hm : fp.messages.length = 0 := by omega
  refine ⟨e4, List.length_eq_zero_iff.1 hm, ?_⟩
  rw [e8, hm]
  simp

theorem forall₂_get_left {α β : Type} {R : α → β → Prop} {l : List α} {l' : List β} (h : List.Forall₂ R l l') {i : Nat} {a : α}
    (ha : l[i]? = some a) : ∃ b, l'[i]? = some b ∧ R a b := forall₂_get h.flip ha

/-- **C91** is false of every negative offset: a Fetch that names a partition that exists with a negative offset is never answered (the process ends, C37). -/
theorem C91_negative {sv : Server} {clock : Int} {k : Nat} {q : FetchRequest} {c : I32} {t1 tr : List SEv} {s1 s2 : Sys} {t : FetchTopic} {par : FetchPartition}
    (ht : t ∈ q.topics) (hp : par ∈ t.partitions) (he : (s1.view 0).hasPartition t.topic par.partition) (hn : par.fetchOffset.toInt < 0) :
    ¬ Exchange sv clock k (.fetch q) c t1 s1 tr s2 := by
  intro h
  obtain ⟨ctx, es, h1, _⟩ := h.run
  obtain ⟨ta, tb, w1, resp, rfl, h2, _⟩ := h1.done (p := fetch q) (f := fetchResponse) rfl
  obtain ⟨fds, h3, _⟩ := fetch_ret h2
  have hm : (t.topic, par) ∈ q.named := List.mem_flatMap.2 ⟨t, ht, List.mem_map.2 ⟨par, hp, rfl⟩⟩
  obtain ⟨n, hm⟩ := List.getElem?_of_mem hm
  obtain ⟨fd, _, hf⟩ := forall₂_get_left h3 hm
  rcases hf with ⟨⟨u0, u1, wm, _, s0, _, hx⟩, _⟩ | ⟨h0, _⟩
  · exact hx (s0.hasPartition he)
  · exact absurd h0 (by dsimp only; omega)

/-- A Fetch from offset 3, not waiting for records. -/
def askBeyond : Request := .fetch ⟨-1, -1, 1, [⟨[116], [⟨0, 3, 1000⟩]⟩]⟩

theorem askBeyond_wf : askBeyond.WellFormed := by
  unfold askBeyond Request.WellFormed ShortList ShortStr
  decide

set_option synthInstance.maxSize 1000 in
/-- **C91** is false: the partition has one record, the client asks from offset 3 on, and is told that there is no error and that the log ends at 3. -/
theorem C91_false : ∃ (t1 tr : List SEv) (s1 s2 : Sys), Exchange ⟨9092, []⟩ 0 0 askBeyond 7 t1 s1 tr s2 ∧
    (s1.view 0).hasPartition [116] 0 ∧ ((s1.view 0).log [116] 0).length = 1 ∧ ((s2.view 0).log [116] 0).length = 1 ∧
    Client.response Client.fetch (sent (actsOf 0 tr)) = some ((7, 0, [([116], [⟨0, 0, 3, []⟩])]), []) := by
  obtain ⟨t0, h⟩ := oneRecord_run
  refine ⟨_, _, _, _, exchange_of_play h 0 9 askBeyond 7 askBeyond_wf (by decide +kernel), ?_, by decide +kernel, by decide +kernel, by decide +kernel⟩
  unfold World.hasPartition; decide +kernel

/-- The hypotheses of `C91_watermark_partial` and `C91_beyond` can be met, with the record and the high watermark 1 for a client that asks from offset 0 on. -/
example : ∃ (t1 tr : List SEv) (s1 s2 : Sys), Exchange ⟨9092, []⟩ 0 0 askFetch 7 t1 s1 tr s2 ∧ ((s1.view 0).log [116] 0).length = 1 ∧
    ((Client.response Client.fetch (sent (actsOf 0 tr))).map fun x => x.1.2.2.map fun t => t.2.map fun p => (p.highWatermark, p.messages.length)) = some [[(1, 1)]] := by
  obtain ⟨t0, h⟩ := oneRecord_run
  exact ⟨_, _, _, _, exchange_of_play h 0 10 askFetch 7 askFetch_wf (by decide +kernel), by decide +kernel, by decide +kernel⟩

/-- A Fetch from offset -1. -/
def askNegative : Request := .fetch ⟨-1, -1, 1, [⟨[116], [⟨0, -1, 1000⟩]⟩]⟩

/-- The situation of `C91_negative`: the request is taken up, and the next step of the connection but one ends the process. -/
example : (∃ t, Sys.Run (Sys.new ⟨9092, []⟩ 0) t (taken 0 askNegative 7 oneRecord)) ∧ ((taken 0 askNegative 7 oneRecord).view 0).hasPartition [116] 0 := by
  obtain ⟨t0, h⟩ := oneRecord_run
  obtain ⟨t, h1⟩ := taken_run 0 askNegative 7 oneRecord
  exact ⟨⟨_, h.append h1⟩, by unfold World.hasPartition; decide +kernel⟩

end KM.Props
