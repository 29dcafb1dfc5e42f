import Verif.Props.Once
import Verif.Props.Sizes
import Verif.Props.Turns

/-!
# What clients see while the data is modest

C114 at the client's end, and C106 and C109 to C113 with `Modest` data in the place of their hypotheses on the sizes of responses and records and on the numbers of records: these
hypotheses hold of every run of a mock in which each partition has less than 16 MiB, whatever the clients send.
-/

namespace KM.Props

open KM Spec

/-- The records of modest data are short. -/
theorem Modest.room {sv : Server} {w : World} (h : Modest sv w) : ∀ t p, ∀ r ∈ w.log t p, wireSize r < 2 ^ 31 := by
  intro t p r hr
  have h1 := h.logs t p
  have h2 := sum_sublist ((List.singleton_sublist.2 hr).map wireSize)
  simp only [List.map_cons, List.map_nil, List.sum_cons, List.sum_nil, Nat.add_zero] at h2
  unfold logBytes at h1
  omega

/-- Modest data has few records in a partition. -/
theorem Modest.few {sv : Server} {w : World} (h : Modest sv w) (t : Bytes) (p : I32) : (w.log t p).length < 2 ^ 24 := by
  have h1 := h.logs t p
  unfold logBytes at h1
  have h2 : ∀ l : List Record, l.length ≤ (l.map wireSize).sum := by
    intro l
    induction l with
    | nil => simp
    | cons r l ih =>
      simp only [List.map_cons, List.sum_cons, List.length_cons]
      unfold wireSize at ih ⊢
      omega
  have := h2 (w.log t p)
  omega

/-- No response is too large for its size field. -/
theorem C114_small {sv : Server} {clock : Int} {tr : List NEv} {n : Net} (h : Net.Run (Net.new sv clock) tr n) (hm : Modest sv (n.sys.view 0)) (c : Nat) :
    SmallReplies sv (actsOf c (mocks tr)) := modest_small h.sys hm c

theorem framed_length {b r : Bytes} : Framed b [r] → b.length = 4 + r.length := by
  intro h
  cases h with
  | cons hs _ h => cases h; simp [hs]

/-- **C114**, what clients receive: the `i`-th message that a client receives has at most four bytes (the correlation id) more than `mostBytes` of the request that the `i`-th message
of the client is. -/
theorem C114_received {sv : Server} {clock : Int} {tr : List NEv} {n : Net} (h : Net.Run (Net.new sv clock) tr n) (hm : Modest sv (n.sys.view 0)) {c i : Nat} {r : Bytes}
    (hr : (frames (got c tr))[i]? = some r) :
    ∃ m req corr client, (frames (asked c tr))[i]? = some m ∧ Accepted req corr client m ∧ r.length ≤ 4 + mostBytes sv (n.sys.view 0) req := by
  obtain ⟨u1, m, u2, payload, u3, n1, n2, req, corr, client, rfl, e2, e3, e4, e5, e6, e7, e8, e9, _⟩ := C106 h c (C114_small h hm c) hr
  refine ⟨m, req, corr, client, ?_, e6, ?_⟩
  · rw [List.append_assoc, asked_append]; exact frame_more e5
  · have h1 := C114_wire e8
    have h2 : (sent (actsOf c (mocks (u2 ++ [.mock (.conn c (.write payload) true)])))).length = 4 + r.length := framed_length e9
    obtain ⟨hist, hreach, _⟩ := reachedBy ((e2.append e3).sys) 0
    obtain ⟨es, h3, _⟩ := e4.sys.steps 0
    have := mostBytes_mono (sv := sv) hreach.nodup h3 req
    omega

/-- **C106** for modest data. -/
theorem C106_modest {sv : Server} {clock : Int} {tr : List NEv} {n : Net} (h : Net.Run (Net.new sv clock) tr n) (hm : Modest sv (n.sys.view 0)) (c : Nat)
    {i : Nat} {r : Bytes} (hr : (frames (got c tr))[i]? = some r) :
    ∃ u1 m u2 payload u3 n1 n2 req corr client, tr = (u1 ++ [.mock (.conn c (.reqBegin m) ())]) ++ ((u2 ++ [.mock (.conn c (.write payload) true)]) ++ u3) ∧
      Net.Run (Net.new sv clock) (u1 ++ [.mock (.conn c (.reqBegin m) ())]) n1 ∧ Net.Run n1 (u2 ++ [.mock (.conn c (.write payload) true)]) n2 ∧ Net.Run n2 u3 n ∧
      (frames (asked c u1))[i]? = some m ∧ Accepted req corr client m ∧ FitsBuffer req corr client ∧
      Exchange sv clock c req corr (mocks u1) n1.sys (mocks (u2 ++ [.mock (.conn c (.write payload) true)])) n2.sys ∧
      Framed (sent (actsOf c (mocks (u2 ++ [.mock (.conn c (.write payload) true)])))) [r] ∧
      (frames (got c (u1 ++ .mock (.conn c (.reqBegin m) ()) :: (u2 ++ [.mock (.conn c (.write payload) true)])))).length ≤ i := C106 h c (C114_small h hm c) hr

/-- **C109** for modest data. -/
theorem C109_modest {sv : Server} {clock : Int} {tr : List NEv} {n : Net} (h : Net.Run (Net.new sv clock) tr n) (hm : Modest sv (n.sys.view 0))
    {t : Bytes} {p : I32} {first : I64} {ps : List Poll} (hp : Polled tr t p first ps) (h0 : 0 ≤ first.toInt) (h1 : first.toInt < 2 ^ 62) :
    Labelled first.toInt (slice ((n.sys.view 0).log t p) first.toInt (pollMessages ps).length) (pollMessages ps) ∧
      (nextOffset first (pollMessages ps)).toInt = first.toInt + (pollMessages ps).length :=
  C109 h hm.room hp (fun _ _ => C114_small h hm _) h0 (by have := hm.few t p; omega)

/-- **C110** for modest data: what clients read. -/
theorem C110_modest {sv : Server} {clock : Int} {tr : List NEv} {n : Net} (h : Net.Run (Net.new sv clock) tr n) (hm : Modest sv (n.sys.view 0)) (t : Bytes) (p : I32) :
    ∃ ks : List Nat, ks.Nodup ∧ ∀ (x : Poll) (o : I64), x.Seen tr t p o → 0 ≤ o.toInt → ∀ m ∈ x.msgs,
      ∃ k r, ks[m.offset.toNat]? = some k ∧ PostedBy sv clock tr (n.sys.view 0).clock t p k r ∧ m.key = r.key ∧ m.value = r.value ∧ m.timestamp = r.timestamp := by
  obtain ⟨ks, h1, h2⟩ := C110_read h hm.room t p (by have := hm.few t p; omega)
  exact ⟨ks, h1, fun x o hx h0 => h2 x o hx (C114_small h hm _) h0⟩

/-- **C111** for modest data. -/
theorem C111_modest {sv : Server} {clock : Int} {g t : Bytes} {p : I32} {tr : List NEv} {n : Net} (h : Net.Run (Net.new sv clock) tr n) (hm : Modest sv (n.sys.view 0))
    (hc : CommitsReceived tr g t p) (hn : NotSet sv clock tr g t p) {start : I64} {ps : List Poll} (hse : GroupSession tr g t p start ps) :
    0 ≤ start.toInt ∧ (nextOffset start (pollMessages ps)).toInt ≤ ((n.sys.view 0).log t p).length ∧
      ∀ j : Nat, (j : Int) < (nextOffset start (pollMessages ps)).toInt → MemberGot tr ((n.sys.view 0).log t p) g t p j :=
  C111 h hm.room (C114_small h hm) (by have := hm.few t p; omega) hc hn hse

/-- **C112** for modest data. -/
theorem C112_modest {sv : Server} {clock : Int} {tr : List NEv} {n : Net} {l : List Happening} (h : OneAtATime sv clock tr n l) (hm : Modest sv (n.sys.view 0))
    (hnames : ∀ t, (n.sys.view 0).hasTopic t → ShortStr t) :
    ∃ us, List.Forall₂ Received l us ∧ Behaves Data.empty clock us (data n.sys) n.sys.clock := C112 h hm.room hnames (C114_small h.run hm)

/-- **C113** for modest data. -/
theorem C113_modest {sv : Server} {clock : Int} {g t : Bytes} {p : I32} {first : I64} {tr : List NEv} {ps : List Poll} (hy : Relay g t p first tr ps) {n : Net}
    (h : Net.Run (Net.new sv clock) tr n) (hm : Modest sv (n.sys.view 0)) (h1 : first.toInt < 2 ^ 62) (hn : NotSet sv clock tr g t p) :
    Labelled first.toInt (slice ((n.sys.view 0).log t p) first.toInt (pollMessages ps).length) (pollMessages ps) ∧
      (nextOffset first (pollMessages ps)).toInt = first.toInt + (pollMessages ps).length :=
  C113 hy h hm.room (C114_small h hm) (by have := hm.few t p; omega) hn

end KM.Props
