import Verif.Props.Visible
import Verif.Bare
/-
C83: a record reaches its consumers with all that was posted.
-/
namespace KM.Props
open KM Spec

/-- **C83**, partial: when ExtendedPost has returned, its record has an offset `pos`, and every Fetch request taken up afterwards that asks for the partition from an offset
not after `pos` is answered with its key, value and timestamp (in milliseconds, rounded down). Missing: the headers, for which it is false, `C83_false`; and requests that
name several partitions of one topic (C60). -/
theorem C83_rest_partial {sa sb : Sys} {i : Nat} {topic : Bytes} {n : Int} {key value : Option Bytes} {hs : List (Bytes × Option Bytes)} {ts : Int} {tc : List SEv}
    (hcall : CallRun sa i (.extendedPost topic n key value hs ts) tc sb) :
    ∃ (pos : Nat) (r : Record), r.headers.Perm hs ∧ ((sb.view 0).log topic (BitVec.ofInt 32 n))[pos]? = some r ∧
      ∀ {tm t1 tr : List SEv} {s1 s2 : Sys} {sv : Server} {clock : Int} {k : Nat} {q : FetchRequest} {c : I32}, Sys.Run sb tm s1 →
        Exchange sv clock k (.fetch q) c t1 s1 tr s2 → (∀ t ∈ q.topics, ∃ p, t.partitions = [p]) →
        (∀ t p, ∀ r ∈ (s2.view 0).log t p, wireSize r < 2 ^ 31) → (sent (actsOf k tr)).length < 2 ^ 31 →
        ∃ x, Client.response Client.fetch (sent (actsOf k tr)) = some ((c, 0, x), []) ∧
          List.Forall₂ (fun (qt : FetchTopic) (rt : Bytes × List Client.FetchedPartition) => rt.1 = qt.topic ∧
            List.Forall₂ (fun (par : FetchPartition) (fp : Client.FetchedPartition) => fp.partition = par.partition ∧
              (qt.topic = topic → par.partition = BitVec.ofInt 32 n → 0 ≤ par.fetchOffset.toInt → par.fetchOffset.toInt ≤ pos →
                ∃ m, fp.messages[pos - par.fetchOffset.toInt.toNat]? = some m ∧ m.offset = BitVec.ofNat 64 pos ∧ m.timestamp = BitVec.ofInt 64 (ts / 1000000) ∧
                  m.key = key ∧ m.value = value))
              qt.partitions rt.2) q.topics x := by
  obtain ⟨pos, r, h1, _, h3, h4⟩ := C60_posts_partial (call := ⟨topic, n, key, value, some (hs, ts)⟩) hcall
  refine ⟨pos, r, h1.2.2.2.1, h3, fun hm hx a b d => ?_⟩
  obtain ⟨x, g1, g2⟩ := h4 hm hx a b d
  refine ⟨x, g1, List.Forall₂.imp ?_ g2⟩
  rintro qt rt ⟨e1, e2⟩
  refine ⟨e1, List.Forall₂.imp ?_ e2⟩
  rintro par fp ⟨e3, e4⟩
  refine ⟨e3, fun a1 a2 a3 a4 => ?_⟩
  obtain ⟨m, f1, f2, f3, f4⟩ := e4 a1 a2 a3 a4
  exact ⟨m, f1, f2, by rw [f3]; exact h1.2.2.2.2, f4⟩

/-- What caller `i` is given to call, step by step. -/
def callsOf (i : Nat) (tr : List SEv) : List Call := tr.filterMap fun e =>
  match e with
  | .life (.api j c) => if j = i then some c else none
  | _ => none

/-- Everything connection `k` does with its socket: what it reads and writes, with the results; that it takes up requests and lays them down; that it closes. -/
def onSocket (k : Nat) (tr : List SEv) : List REv := (actsOf k tr).filter (·.act.socket)

theorem onSocket_bare (k : Nat) (tr : List SEv) : onSocket k (tr.map SEv.bare) = onSocket k tr := by
  induction tr with
  | nil => rfl
  | cons e tr ih =>
    have hc : ∀ (e : SEv) tr, onSocket k (e :: tr) = onSocket k [e] ++ onSocket k tr := by
      intro e tr
      rw [← List.singleton_append, onSocket, actsOf, List.filterMap_append, List.filter_append]
      rfl
    rw [List.map_cons, hc, ih, hc e]
    congr 1
    cases e with
    | life c => cases c <;> rfl
    | conn c a r =>
      by_cases e : c = k
      · subst e
        cases a <;> simp [onSocket, actsOf, SEv.bare, Act.plain, Act.bareResp, Act.socket]
      · simp [onSocket, actsOf, SEv.bare, e]
    | call => rfl
    | tick => rfl
    | unroll => rfl

/-- The headers of records have no influence on anything a client gets: whatever happens in a run of the mock happens in the run in which all the calls are made without headers
too. The connections do the same with their sockets, and the records are the same but for the headers. -/
theorem C83_unseen {sv : Server} {clock : Int} {tr : List SEv} {s : Sys} (h : Sys.Run (Sys.new sv clock) tr s) :
    ∃ tr' s', Sys.Run (Sys.new sv clock) tr' s' ∧ (∀ i, callsOf i tr' = (callsOf i tr).map Call.bare) ∧ (∀ k, onSocket k tr' = onSocket k tr) ∧
      ∀ t p, (s'.view 0).log t p = ((s.view 0).log t p).map fun r => { r with headers := [] } := by
  obtain ⟨s', h1, h2⟩ := new_run_bare h
  refine ⟨_, s', h1, fun i => ?_, fun k => onSocket_bare k tr, fun t p => ?_⟩
  · unfold callsOf
    rw [List.filterMap_map, List.map_filterMap]
    congr 1
    funext e
    cases e with
    | life c =>
      cases c with
      | api j c =>
        show (if j = i then some c.bare else none) = Option.map Call.bare (if j = i then some c else none)
        split <;> rfl
      | _ => rfl
    | _ => rfl
  · show (World.log ⟨s'.ds, _, _⟩ t p) = _
    rw [h2]
    simp only [World.log, Sys.view, bare_part]
    cases s.ds.part? t p <;> rfl

/-- A mock with one connection. -/
def noRecord : Sys := after (starts 0 ++ opens 0 ++ accepts 0)

/-- A record with these headers. -/
def postHeaders (hs : List (Bytes × Option Bytes)) : Call := .extendedPost [116] 0 none (some [1, 2]) hs 7000000

/-- The mock when that call has returned. -/
def withHeaders (hs : List (Bytes × Option Bytes)) : Sys :=
  stateAfter (caller 0 (postHeaders hs) 4) (noRecord.setApi 0 (.call (extendedPost [116] 0 none (some [1, 2]) hs 7000000)))

theorem taken_from (k : Nat) (req : Request) (c : I32) (s : Sys) : ∃ tr, Sys.Run s tr (taken k req c s) :=
  ⟨_, (stateAfter_run (asks k req c) s).append (stateAfter_run [.conn k] _)⟩

/-- **C83** is false: a record posted with a header and the same record posted without are fetched with the same bytes. -/
theorem C83_false : ∃ (s : Sys) (tc tc' : List SEv) (sb sb' : Sys), CallRun s 0 (postHeaders [([104], some [9])]) tc sb ∧ CallRun s 0 (postHeaders []) tc' sb' ∧
    ((sb.view 0).log [116] 0).map (·.headers) = [[([104], some [9])]] ∧
    ∃ (t1 tr tm t1' tr' tm' : List SEv) (s1 s2 s1' s2' : Sys), Sys.Run sb tm s1 ∧ Sys.Run sb' tm' s1' ∧
      Exchange ⟨9092, []⟩ 0 0 askFetch 7 t1 s1 tr s2 ∧ Exchange ⟨9092, []⟩ 0 0 askFetch 7 t1' s1' tr' s2' ∧
      sent (actsOf 0 tr) = sent (actsOf 0 tr') ∧
      ((Client.response Client.fetch (sent (actsOf 0 tr))).map fun x => x.1.2.2.map fun t => t.2.map fun p => p.messages.map (·.value)) = some [[[some [1, 2]]]] := by
  have h0 : Sys.Run (Sys.new ⟨9092, []⟩ 0) _ noRecord := stateAfter_run (starts 0 ++ opens 0 ++ accepts 0) _
  have c1 : CallRun noRecord 0 (postHeaders [([104], some [9])]) _ (withHeaders [([104], some [9])]) := callRun_of_play 0 4 _ _ rfl rfl (by decide +kernel) rfl
  have c2 : CallRun noRecord 0 (postHeaders []) _ (withHeaders []) := callRun_of_play 0 4 _ _ rfl rfl (by decide +kernel) rfl
  obtain ⟨tm, m1⟩ := taken_from 0 askFetch 7 (withHeaders [([104], some [9])])
  obtain ⟨tm', m2⟩ := taken_from 0 askFetch 7 (withHeaders [])
  have r1 : ∃ tr, Sys.Run (Sys.new ⟨9092, []⟩ 0) tr (withHeaders [([104], some [9])]) := by
    obtain ⟨sx, a, b⟩ := c1.run
    exact ⟨_, (h0.append (.cons a (.nil _))).append b⟩
  have r2 : ∃ tr, Sys.Run (Sys.new ⟨9092, []⟩ 0) tr (withHeaders []) := by
    obtain ⟨sx, a, b⟩ := c2.run
    exact ⟨_, (h0.append (.cons a (.nil _))).append b⟩
  obtain ⟨_, r1⟩ := r1
  obtain ⟨_, r2⟩ := r2
  exact ⟨_, _, _, _, _, c1, c2, by decide +kernel, _, _, tm, _, _, tm', _, _, _, _, m1, m2,
    exchange_of_play r1 0 10 askFetch 7 askFetch_wf (by decide +kernel), exchange_of_play r2 0 10 askFetch 7 askFetch_wf (by decide +kernel),
    by decide +kernel, by decide +kernel⟩

end KM.Props
