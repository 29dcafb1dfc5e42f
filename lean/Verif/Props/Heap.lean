import Verif.Heap
import Verif.Props.Fetch
/-
Property C53: posted data and the buffers it came from.
-/
namespace KM.Props
open KM

/-- The effects on the store, with each post as the bytes that its slices showed at the time. -/
def captured (tr : List HEv) : List Eff := tr.filterMap fun e =>
  match e with
  | .act a _ => a.effect
  | .post t p _ bytes => some (.post t p bytes)
  | .write _ _ => none

theorem captured_cons (e : HEv) (es : List HEv) : captured (e :: es) = captured [e] ++ captured es := by
  unfold captured
  rw [← List.filterMap_append]
  rfl

/-- If no byte is written that is in a slice of a record, the store in memory behaves like a store that holds the bytes themselves: the model used
everywhere else. -/
theorem heap_refines {w w' : HWorld} {tr : List HEv} (h : HRun w tr w')
    (hw : ∀ t1 t2 buf b wm, tr = t1 ++ .write buf b :: t2 → HRun w t1 wm → ∀ s, wm.refers s → s.buf = buf → ∀ i, s.off ≤ i → i < s.off + s.len → b[i]? = (wm.heap buf)[i]?) :
    ∃ es, Steps w.view es w'.view ∧ effects es = captured tr := by
  induction h with
  | nil => exact ⟨[], .nil _, rfl⟩
  | @cons w w1 w2 e es h _ ih =>
    have ih := ih fun t1 t2 buf b wm ht hr => hw (e :: t1) t2 buf b wm (by rw [ht]; rfl) (.cons h hr)
    obtain ⟨e2, h1, h2⟩ := ih
    rw [captured_cons]
    cases h with
    | @act a r wv hp ha =>
      rw [onHeap_load hp ha] at h1
      refine ⟨⟨true, a, r⟩ :: e2, .cons _ ha h1, ?_⟩
      rw [effects_cons, h2]
      simp only [captured, List.filterMap_cons, List.filterMap_nil]
      cases a.effect <;> rfl
    | @post t p rec hp =>
      refine ⟨⟨true, .post t p (rec.load w.heap), ()⟩ :: e2, .cons _ (w1 := HWorld.view { w with ds := w.ds.updPart t p (HStore.postRecord · rec) }) ?_ h1, ?_⟩
      · refine ⟨hp, ?_⟩
        unfold HWorld.view World.withDs
        dsimp only
        rw [HStore.load_updPart (f' := (Store.postRecord · (rec.load w.heap))) _ _ _ _ (HStore.load_postRecord _ rec)]
      · rw [effects_cons, h2]; rfl
    | write buf b =>
      rw [write_unseen (hw [] es buf b w rfl (.nil _))] at h1
      exact ⟨e2, h1, by rw [h2]; rfl⟩

/-- **C53**, provided the slices of posted records are left alone: a partition's log is what was posted, each record with the bytes its slices
showed at the time of the post, whatever other bytes are changed at whatever time, also of the same buffers. What is missing is writing to a posted slice, which changes the
record (`C53_false`). -/
theorem C53_partial {w w' : HWorld} {tr : List HEv} (h : HRun w tr w')
    (hw : ∀ t1 t2 buf b wm, tr = t1 ++ .write buf b :: t2 → HRun w t1 wm → ∀ s, wm.refers s → s.buf = buf → ∀ i, s.off ≤ i → i < s.off + s.len → b[i]? = (wm.heap buf)[i]?) (t : Bytes) (p : I32) :
    w'.view.log t p = w.view.log t p ++ Spec.posts (captured tr) t p := by
  obtain ⟨es, h1, h2⟩ := heap_refines h hw
  rw [← h2]
  exact h1.log t p

/-- The mock with buffer 7 holding `abc`, before anything is posted. -/
def exHeap : HWorld := ⟨fun n => if n = 7 then [97, 98, 99] else [], [], 0, false⟩

/-- The actions of `SimplePost` of topic `t`, partition 0, with the buffer as the value. -/
def exPost : List HEv := [.act (.createTopic [116]) (), .act (.createPartition [116] 0) (), .act .now (0 : Int), .post [116] 0 ⟨0, 0, none, some ⟨7, 0, 3⟩, []⟩ ⟨0, 0, none, some [97, 98, 99], []⟩]

def exPosted : HWorld := ⟨exHeap.heap, [([116], [(0, ⟨0, 0, [⟨0, 0, none, some ⟨7, 0, 3⟩, []⟩], [], none⟩)])], 0, false⟩

theorem exPost_run : HRun exHeap exPost exPosted :=
  .cons (.act (fun _ _ _ h => by cases h) rfl) (.cons (.act (fun _ _ _ h => by cases h) ⟨rfl, rfl⟩) (.cons (.act (fun _ _ _ h => by cases h) ⟨rfl, rfl⟩)
    (.cons (.post (w := ⟨exHeap.heap, [([116], [(0, ⟨0, 0, [], [], none⟩)])], 0, false⟩) rfl) (.nil _))))

/-- The same with the second byte of the buffer. -/
def exMiddle : List HEv := [.act (.createTopic [116]) (), .act (.createPartition [116] 0) (), .act .now (0 : Int), .post [116] 0 ⟨0, 0, none, some ⟨7, 1, 1⟩, []⟩ ⟨0, 0, none, some [98], []⟩]

/-- The hypotheses of `C53_partial` can be met by a run in which a record is posted from the middle of a buffer and then the bytes around it are changed. -/
example : ∃ w', HRun exHeap (exMiddle ++ [.write 7 [1, 98, 2, 3]]) w' ∧
    (∀ t1 t2 buf b wm, exMiddle ++ [.write 7 [1, 98, 2, 3]] = t1 ++ .write buf b :: t2 → HRun exHeap t1 wm →
      ∀ s, wm.refers s → s.buf = buf → ∀ i, s.off ≤ i → i < s.off + s.len → b[i]? = (wm.heap buf)[i]?) ∧
    w'.heap 7 = [1, 98, 2, 3] ∧ w'.view.log [116] 0 = [⟨0, 0, none, some [98], []⟩] := by
  let wp : HWorld := ⟨exHeap.heap, [([116], [(0, ⟨0, 0, [⟨0, 0, none, some ⟨7, 1, 1⟩, []⟩], [], none⟩)])], 0, false⟩
  have only : ∀ wm, HRun exHeap exMiddle wm → wm.ds = wp.ds ∧ wm.heap = exHeap.heap := by
    intro wm h
    unfold exMiddle at h
    cases h with | cons h h' => ?_
    cases h
    cases h' with | cons h h' => ?_
    cases h
    cases h' with | cons h h' => ?_
    cases h
    cases h' with | cons h h' => ?_
    cases h
    cases h'
    exact ⟨rfl, rfl⟩
  refine ⟨{ wp with heap := fun n => if n = 7 then [1, 98, 2, 3] else wp.heap n }, ?_, ?_, rfl, by decide +kernel⟩
  · exact .cons (.act (fun _ _ _ h => by cases h) rfl) (.cons (.act (fun _ _ _ h => by cases h) ⟨rfl, rfl⟩) (.cons (.act (fun _ _ _ h => by cases h) ⟨rfl, rfl⟩)
      (.cons (.post (w := ⟨exHeap.heap, [([116], [(0, ⟨0, 0, [], [], none⟩)])], 0, false⟩) (rec := ⟨0, 0, none, some ⟨7, 1, 1⟩, []⟩) rfl) (.cons (.write (w := wp) 7 [1, 98, 2, 3]) (.nil _)))))
  · intro t1 t2 buf b wm ht hr
    have : t1 = exMiddle ∧ buf = 7 ∧ b = [1, 98, 2, 3] := by
      rcases t1 with _ | ⟨e1, _ | ⟨e2, _ | ⟨e3, _ | ⟨e4, _ | ⟨e5, t1⟩⟩⟩⟩⟩ <;> simp [exMiddle] at ht ⊢
      · obtain ⟨rfl, rfl, rfl, rfl, ⟨rfl, rfl⟩, _⟩ := ht
        simp
    obtain ⟨rfl, rfl, rfl⟩ := this
    obtain ⟨h1, h2⟩ := only wm hr
    rw [h2]
    rintro s ⟨e, he, f, hf, rec, hrec, hb⟩ - i i1 i2
    rw [h1] at he
    simp only [wp, List.mem_singleton] at he
    subst he
    simp only [List.mem_singleton] at hf
    subst hf
    simp only [List.mem_singleton] at hrec
    subst hrec
    simp only [HRecord.slices, Option.toList, List.filterMap_nil, List.append_nil, List.nil_append, List.mem_singleton] at hb
    subst hb
    obtain rfl : i = 1 := by dsimp only at i1 i2; omega
    rfl

def exHeapFetch : FetchRequest := ⟨-1, 100, 1, [⟨[116], [⟨0, 0, 1000⟩]⟩]⟩

/-- The values of the messages in a response. -/
def valuesOf (resp : FetchResponse) : List (Option Bytes) := resp.responses.flatMap fun t => t.partitions.flatMap fun p => p.records.msgs.map (·.value)

/-- **C53** is false: `SimplePost` has returned, then the caller changes one byte of its buffer, and a client that fetches the record gets the changed
bytes. -/
theorem C53_false : ∃ w1 tr1 wa tr2 wb resp1 resp2, HRun exHeap exPost exPosted ∧ HStep exPosted (.write 7 [97, 98, 120]) w1 ∧
    Exec exPosted.view (fetch exHeapFetch) tr1 wa (.ret resp1) ∧ valuesOf resp1 = [some [97, 98, 99]] ∧
    Exec w1.view (fetch exHeapFetch) tr2 wb (.ret resp2) ∧ valuesOf resp2 = [some [97, 98, 120]] :=
  ⟨_, _, _, _, _, _, _, exPost_run, .write _ _, Prog.run_ret (sch := go 40) rfl, by decide +kernel, Prog.run_ret (sch := go 40) rfl, by decide +kernel⟩

end KM.Props
