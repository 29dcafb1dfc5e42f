import Verif.System
import Verif.Props.WindDown
/-
The whole mock: property C46 (data survive restarts), and properties of connections (C11, C12, C14, C49) for the connections of the mock, among
all its goroutines: any number of connections, callers of exported functions and accept loops, in every interleaving.
-/
namespace KM.Props
open KM KM.Spec

/-! ### C46 -/

/-- **C46**: whatever the goroutines of the mock do, including every sequence of stops and starts, a partition's log afterwards is the log before
followed by what was posted in between; a group's committed offset is the one before updated by the commits and resets in between; and no topic or
partition is lost. -/
theorem C46_kept {s s' : Sys} {tr : List SEv} (h : Sys.Run s tr s') :
    (∀ t p, (s'.view 0).log t p = (s.view 0).log t p ++ Spec.posts (effectsOf tr) t p) ∧
    (∀ t p g, ((s'.view 0).committed t p g).toInt = Spec.committedFrom ((s.view 0).committed t p g).toInt (effectsOf tr) t p g) ∧
    (∀ t, (s.view 0).hasTopic t → (s'.view 0).hasTopic t) ∧ ∀ t p, (s.view 0).hasPartition t p → (s'.view 0).hasPartition t p := by
  obtain ⟨es, h1, h2⟩ := h.steps 0
  rw [← h2]
  exact ⟨h1.log, h1.committed, fun t => h1.hasTopic, fun t p => h1.hasPartition⟩

/-- A step of a lifecycle function, of an accept loop or of the end of a connection; not an action of a posting function or of a request. -/
def lifecycle : SEv → Bool
  | .life _ => true
  | .tick _ => true
  | _ => false

/-- **C46**: the lifecycle functions, the accept loops and the ending of connections do not touch the store at all. -/
theorem C46_untouched {s s' : Sys} {tr : List SEv} (h : Sys.Run s tr s') (hl : ∀ e ∈ tr, lifecycle e = true) : s'.ds = s.ds := by
  induction h with
  | nil => rfl
  | cons h _ ih =>
    rw [ih (fun e he => hl e (List.mem_cons_of_mem _ he))]
    have := hl _ List.mem_cons_self
    cases h with
    | life hn => exact (next_data hn).2.1
    | tick => rfl
    | _ => cases this

def bootAndPost : List Pick := starts 0 ++ opens 0 ++ caller 0 (.simplePost [116] 0 none (some [1, 2])) 6

/-- A call of `Restart` from beginning to end. -/
def restarts : List Pick := caller 0 .restart 9 ++ List.replicate 4 (.run 0) ++ caller 0 .restart 12 ++ opens 1 ++ caller 0 .restart 1

/-- A record is posted, then the mock is restarted: after `Restart` has returned, the second accept loop accepts and the record is there. -/
example : (after (bootAndPost ++ restarts)).runs = [⟨.ended, 0⟩, ⟨.accept, 0⟩] ∧ ((after (bootAndPost ++ restarts)).api 0 matches .idle) ∧
    ((after (bootAndPost ++ restarts)).view 0).log [116] 0 = [⟨0, 0, none, some [1, 2], []⟩] := by decide +kernel

/-! ### C49 in the whole mock -/

/-- Caller `i` is about to call `km.cancelFn()`: in `FinishRequests`, or in `RequestStop` (line 84), which may have been called by
`WaitForTermination` or `Restart`. -/
def Cancelling (s : Sys) (i : Nat) : Prop := s.api i = .finish ∨ ∃ b, s.api i = .stop .cancel b

theorem cancelling_done {s s' : Sys} {i : Nat} {cl : Call} (ha : Cancelling s i) (hn : s.next (.api i cl) = .ok s') {g : Nat} (hg : s.ctx = some g) :
    s'.isDone g = true ∧ s'.conns = s.conns := by
  rcases ha with ha | ⟨b, ha⟩
  · simp only [Sys.next, Sys.apiStep, ha, hg] at hn
    cases hn
    exact ⟨by simp [Sys.isDone, Sys.setApi], rfl⟩
  · simp only [Sys.next, Sys.apiStep, ha, Sys.stopStep, hg] at hn
    cases hn
    exact ⟨by simp [Sys.isDone, Sys.setApi], rfl⟩

theorem run_done {s s' : Sys} {tr : List SEv} (h : Sys.Run s tr s') {g : Nat} (hd : s.isDone g = true) : s'.isDone g = true := by
  obtain ⟨es, h1, _⟩ := h.steps g
  exact h1.cancelled hd

/-- **C49** in the whole mock: from the moment `FinishRequests` or `RequestStop` has cancelled the context, every connection there is reads at most
once more, and the requests it has begun to process in the whole run are among those it had received before plus that read. -/
theorem C49_mock {sv : Server} {clock : Int} {t1 t2 : List SEv} {s1 sc s2 : Sys} {i : Nat} {cl : Call} (h1 : Sys.Run (Sys.new sv clock) t1 s1)
    (ha : Cancelling s1 i) (hc : Sys.Step s1 (.life (.api i cl)) sc) (h2 : Sys.Run sc t2 s2) {c : Nat} {k : ConnG} (hk : s1.conns[c]? = some k) :
    readCount (actsOf c t2) ≤ 1 ∧ (∀ l1 l2 r, actsOf c t2 = l1 ++ ⟨.recv, r⟩ :: l2 → l1 = []) ∧
    ∃ b : Bytes, b.length ≤ 8192 ∧ served (actsOf c t1 ++ actsOf c t2) <+: frames (received (actsOf c t1) ++ b) := by
  cases hc with
  | life hn =>
  have h1' : Sys.Run (Sys.new sv clock) (t1 ++ [.life (.api i cl)]) sc := h1.append (.cons (.life hn) (.nil _))
  have hacts : actsOf c (t1 ++ [.life (.api i cl)]) = actsOf c t1 := by rw [actsOf_append]; exact List.append_nil _
  obtain ⟨_, hat, hct⟩ := h1.whole
  have hkc : sc.conns[c]? = some k := by
    rw [show sc.conns = s1.conns from apiStep_conns hn]; exact hk
  by_cases hp : ∃ p, k.pc = .body p
  · obtain ⟨p, hp⟩ := hp
    have hx := hct.live hat hk (by rw [hp]; rfl)
    have hd := (cancelling_done ha hn hx).1
    obtain ⟨w, w', e1, e2, p2, x1, x2, x3, x4⟩ := h1'.connection_at h2 hkc hp
    rw [hacts] at x3
    have r1 := C49_one_read x1 hd x2
    have r2 := C49_only_buffered x1 hd x2
    rw [x4] at r1
    rw [x3, x4] at r2
    exact ⟨r1.1, r1.2, r2⟩
  · have hp : ∀ p, k.pc ≠ .body p := fun p e => hp ⟨p, e⟩
    have none : actsOf c t2 = [] := by
      clear hacts h1' hn
      revert hkc hp
      generalize k = k
      intro hkc hp
      induction h2 generalizing k with
      | nil => rfl
      | cons h _ ih =>
        obtain ⟨x1, k', x2, _, _, _, x3⟩ := step_left h hkc hp
        rw [actsOf_cons, x1]
        exact ih k' x2 x3
    rw [none]
    refine ⟨Nat.zero_le _, fun l1 l2 r h => ?_, [], Nat.zero_le _, ?_⟩
    · cases l1 <;> cases h
    · obtain ⟨w, w', es, p, x1, x2, _⟩ := h1.connection hk
      have := C11_framing x1
      rw [x2] at this
      simpa using this

/-- **C49**, new connections: a connection that the accept loop of the same start hands to a handler after the context was cancelled is closed without
a read and without a request processed. -/
theorem C49_mock_new {sv : Server} {clock : Int} {t1 t2 : List SEv} {s1 sc s2 : Sys} {i : Nat} {cl : Call} (h1 : Sys.Run (Sys.new sv clock) t1 s1)
    (ha : Cancelling s1 i) (hc : Sys.Step s1 (.life (.api i cl)) sc) (h2 : Sys.Run sc t2 s2) {c : Nat} {k : ConnG} (hk : s2.conns[c]? = some k)
    (hnew : s1.conns[c]? = none) (hg : s1.ctx = some k.gen) : actsOf c t2 <+: [⟨.isDone, true⟩, ⟨.close, ()⟩] ∧
    ((∀ p, k.pc ≠ .body p) → actsOf c t2 = [⟨.isDone, true⟩, ⟨.close, ()⟩]) := by
  cases hc with
  | life hn =>
  have h1' : Sys.Run (Sys.new sv clock) (t1 ++ [.life (.api i cl)]) sc := h1.append (.cons (.life hn) (.nil _))
  obtain ⟨hd, hcs⟩ := cancelling_done ha hn hg
  obtain ⟨ta, tb, sb, e, hta, htb, h4, h5⟩ := h2.born (by rw [hcs]; exact hnew) hk
  obtain ⟨_, _, hct⟩ := (h1'.append h2).whole
  have hgk := hct.conn c k hk
  have hdb := run_done hta hd
  obtain ⟨k', h6, _, _, _, h7⟩ := htb.project h4 rfl
  rw [hk] at h6; cases h6
  have hcan : (sb.view k.ctx).cancelled = true := by show sb.isDone k.ctx = true; rw [hgk]; exact hdb
  have hsplit : actsOf c t2 = actsOf c tb := by rw [e, actsOf_append, h5]; rfl
  rw [hsplit]
  rcases h7 with ⟨p, es, h8, h9, h10, _⟩ | ⟨h8, es, w, h9, h10⟩
  · obtain ⟨r1, _, _⟩ := C49_new_connection h9 hcan
    rw [h10] at r1
    exact ⟨r1, fun h => absurd h8 (h _)⟩
  · obtain ⟨r1, r2, _⟩ := C49_new_connection h9 hcan
    rw [h10] at r1 r2
    exact ⟨r1, fun _ => r2 rfl⟩

/-- **C49**, the end of a connection: when a connection of the mock has left its loop, it has found the mock cancelled and closed its connection, or the
client has disconnected. -/
theorem C49_mock_closes {sv : Server} {clock : Int} {tr : List SEv} {s : Sys} (h : Sys.Run (Sys.new sv clock) tr s) {c : Nat} {k : ConnG}
    (hk : s.conns[c]? = some k) (he : ∀ p, k.pc ≠ .body p) :
    ∃ l0, actsOf c tr = l0 ++ [⟨.isDone, true⟩, ⟨.close, ()⟩] ∨ actsOf c tr = l0 ++ [⟨.isDone, false⟩, ⟨.recv, .closed⟩] := by
  obtain ⟨w, w', es, p, h1, h2, h3⟩ := h.connection hk
  rcases h3 with h3 | ⟨_, rfl⟩
  · exact absurd h3 (he _)
  · rw [← h2]; exact C49_closes h1

/-- A client is connected, another one has been accepted but not yet registered, and `FinishRequests` is about to cancel. -/
def aboutToFinish : List Pick := starts 0 ++ opens 0 ++ accepts 0 ++ List.replicate 3 (.run 0) ++ caller 0 .finishRequests 1

/-- The hypotheses of `C49_mock` and `C49_mock_new` can be met: connection 0 was there, connection 1 is registered afterwards, and both are closed. -/
example : Cancelling (after aboutToFinish) 0 ∧ (after aboutToFinish).ctx = some 0 ∧ (after aboutToFinish).conns.length = 1 ∧
    ((Sys.play (caller 0 .finishRequests 1 ++ List.replicate 4 (.run 0) ++ windsUp 0 ++ windsUp 1) (after aboutToFinish)).map
      fun x => (x.2.conns.map fun k => (k.gen, (k.pc matches .oc .lock)), (actsOf 0 x.1).length, (actsOf 1 x.1).length)) =
      some ([(0, true), (0, true)], 2, 2) := by
  refine ⟨.inl rfl, rfl, rfl, ?_⟩
  decide +kernel

/-! ### C11, C12, C14 for the connections of the mock -/

/-- **C11** in the whole mock. -/
theorem C11_mock {sv : Server} {clock : Int} {tr : List SEv} {s : Sys} (h : Sys.Run (Sys.new sv clock) tr s) {c : Nat} {k : ConnG}
    (hk : s.conns[c]? = some k) : served (actsOf c tr) <+: frames (received (actsOf c tr)) := by
  obtain ⟨w, w', es, p, h1, h2, _⟩ := h.connection hk
  rw [← h2]; exact C11_framing h1

/-- **C12** in the whole mock: whenever a connection reads, every complete message it has received has been processed. -/
theorem C12_mock {sv : Server} {clock : Int} {tr : List SEv} {s : Sys} (h : Sys.Run (Sys.new sv clock) tr s) {c : Nat} {k : ConnG}
    (hk : s.conns[c]? = some k) {l1 l2 : List REv} {r : RecvResult} (hl : actsOf c tr = l1 ++ ⟨.recv, r⟩ :: l2) : served l1 = frames (received l1) := by
  obtain ⟨w, w', es, p, h1, h2, _⟩ := h.connection hk
  rw [← h2] at hl; exact C12_no_further_input h1 hl

/-- **C14** in the whole mock: whenever a connection reads, it has sent exactly one response for each complete message it has received, in order, each
with the message's correlation id, whatever the other connections do. -/
theorem C14_mock {sv : Server} {clock : Int} {tr : List SEv} {s : Sys} (h : Sys.Run (Sys.new sv clock) tr s) {c : Nat} {k : ConnG}
    (hk : s.conns[c]? = some k) {l1 l2 : List REv} {r : RecvResult} (hl : actsOf c tr = l1 ++ ⟨.recv, r⟩ :: l2) (ha : AllSent l1) (hs : Small l1) :
    ∃ rs, Framed (sent l1) rs ∧ List.Forall₂ (fun m r => requestCorrelation m = responseCorrelation r) (frames (received l1)) rs := by
  obtain ⟨w, w', es, p, h1, h2, _⟩ := h.connection hk
  rw [← h2] at hl; exact C14_all_answered h1 hl ha hs

end KM.Props
