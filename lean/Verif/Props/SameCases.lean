import Verif.Props.Same
import Verif.Props.TurnsCases
/-
C116: runs of mocks with different ports, clocks and orders of events, in which a test posts a record and a client fetches it.
-/
namespace KM.Props
open KM KM.Spec

/-- The mock starts and two clients connect. A test posts, as caller `i`, and the client of connection `c` fetches, with correlation id `corr`. -/
structure TwoTurns where
  sv : Server
  clock : Int
  call : PostCall
  i : Nat
  c : Nat
  corr : I32
  setup : List NPick
  post : List NPick
  fetch : List NPick

namespace TwoTurns
variable (x : TwoTurns)

def n0 : Net := netAfter x.setup (Net.new x.sv x.clock)
def n1 : Net := netAfter x.post x.n0
def n2 : Net := netAfter x.fetch x.n1
def t0 : List NEv := [] ++ netEvents x.setup (Net.new x.sv x.clock)
def t1' : List NEv := (netEvents x.post x.n0).tail
def t1 : List NEv := x.t0 ++ .mock (.life (.api x.i x.call.call)) :: x.t1'
def t2 : List NEv := x.t1 ++ netEvents x.fetch x.n1
def reply : Bytes := got x.c x.t2
def uses : List Happening := [.posted x.call, .answered askFetch x.corr x.reply]

/-- What is checked of the run. -/
structure Ok : Prop where
  quiet0 : (netEvents x.setup (Net.new x.sv x.clock)).all quiet = true
  two : x.t2.all onlyTwo = true
  none0 : NoMessage [] (netEvents x.setup (Net.new x.sv x.clock)) 0
  none1 : NoMessage [] (netEvents x.setup (Net.new x.sv x.clock)) 1
  calls : netEvents x.post x.n0 = .mock (.life (.api x.i x.call.call)) :: x.t1'
  idle : x.n0.sys.api x.i = .idle
  ends : x.n1.sys.api x.i = .call (.ret ())
  quiet1 : x.t1'.all quiet = true
  inside : (x.t1'.all fun e => match e with | .mock (.life (.api ..)) => false | _ => true) = true
  none2 : NoMessage x.t0 (.mock (.life (.api x.i x.call.call)) :: x.t1') 0
  none3 : NoMessage x.t0 (.mock (.life (.api x.i x.call.call)) :: x.t1') 1
  quiet2 : (netEvents x.fetch x.n1).all quiet = true
  none4 : ∀ d, d = 0 ∨ d = 1 → d ≠ x.c → NoMessage x.t1 (netEvents x.fetch x.n1) d
  one : (frames (asked x.c x.t2)).length = (frames (asked x.c x.t1)).length + 1
  message : (frames (asked x.c x.t2))[(frames (asked x.c x.t1)).length]? = some (askFetch.message x.corr ownName)
  fits : FitsBuffer askFetch x.corr ownName
  gets : (frames (got x.c x.t2))[(frames (asked x.c x.t1)).length]? = some (x.reply.drop 4)
  small : (x.reply.drop 4).length + 4 < 2 ^ 31
  framed : Framed x.reply [x.reply.drop 4]

theorem oneAtATime (h : x.Ok) : OneAtATime x.sv x.clock x.t2 x.n2 x.uses := by
  have two1 : x.t1.all onlyTwo = true := by have := h.two; unfold t2 at this; rw [List.all_append, Bool.and_eq_true] at this; exact this.1
  have two0 : x.t0.all onlyTwo = true := by have := two1; unfold t1 at this; rw [List.all_append, Bool.and_eq_true] at this; exact this.1
  have h0 : OneAtATime x.sv x.clock x.t0 x.n0 [] := .wait .new (netAfter_run _ _) (noCalls_of h.quiet0) fun d => noMessage_of two0 (fun _ => h.none0) fun _ => h.none1
  have hr : Net.Run x.n0 (.mock (.life (.api x.i x.call.call)) :: x.t1') x.n1 := by rw [← h.calls]; exact netAfter_run _ _
  have h1 : OneAtATime x.sv x.clock x.t1 x.n1 [.posted x.call] := by
    refine .call (l := []) h0 rfl h.idle hr (noCalls_of h.quiet1) ?_ h.ends fun d => noMessage_of two1 (fun _ => h.none2) fun _ => h.none3
    intro c' hm
    exact absurd (List.all_eq_true.1 h.inside _ hm) nofun
  exact .request (l := [.posted x.call]) h1 (netAfter_run _ _) (noCalls_of h.quiet2)
    (fun d hd => noMessage_of h.two (fun e => e ▸ h.none4 d (.inl e) hd) fun e => e ▸ h.none4 d (.inr e) hd) h.one h.message (accepted_proper askFetch_wf _ ownName_short) h.fits h.gets h.small h.framed

theorem small_replies (h : x.Ok) (h0 : ((actsOf 0 (mocks x.t2)).all (fun e => !REv.failedWrite e) && (actsOf 0 (mocks x.t2)).all (fun e => !REv.bigWrite e) && closedOff (actsOf 0 (mocks x.t2))) = true)
    (h1 : ((actsOf 1 (mocks x.t2)).all (fun e => !REv.failedWrite e) && (actsOf 1 (mocks x.t2)).all (fun e => !REv.bigWrite e) && closedOff (actsOf 1 (mocks x.t2))) = true) (c : Nat) :
    SmallReplies x.sv (actsOf c (mocks x.t2)) := by
  by_cases e0 : c = 0
  · subst e0; exact smallReplies_check (x.oneAtATime h).run 0 h0
  · by_cases e1 : c = 1
    · subst e1; exact smallReplies_check (x.oneAtATime h).run 1 h1
    · rw [(two_others h.two e0 e1).2]
      intro l1 m l2 l3 c payload e
      exact absurd e (by simp)

theorem names (h : (x.n2.sys.view 0).ds.all (fun x => x.1 == [116]) = true) : ∀ t, (x.n2.sys.view 0).hasTopic t → ShortStr t := by
  intro t ht
  unfold World.hasTopic at ht
  generalize (x.n2.sys.view 0).ds = m at h ht
  induction m with
  | nil => cases ht
  | cons x m ih =>
    simp only [List.all_cons, Bool.and_eq_true, beq_iff_eq] at h
    unfold GoMap.get at ht
    split at ht
    · rename_i e
      rw [← e, h.1]
      unfold ShortStr; decide
    · exact ih h.2 ht

theorem records (h : ((x.n2.sys.view 0).ds.all fun x => x.2.all fun y => y.2.records.all fun r => decide (wireSize r < 2 ^ 31)) = true) :
    ∀ t p, ∀ r ∈ (x.n2.sys.view 0).log t p, wireSize r < 2 ^ 31 := (roomy_of (k := 0) (tr := []) (s2 := x.n2.sys) h (by decide)).records

end TwoTurns

/-- SimplePost, on port 9092 at the time 0. -/
def early : TwoTurns := ⟨⟨9092, []⟩, 0, ⟨[116], 0, none, some [1, 2], none⟩, 1, 0, 2, turn0, turn1, asksFor 0 askFetch 2 14 ++ [.receive 0 30, .receive 0 1000]⟩

/-- SimplePost, on port 9093 two seconds later; the other connection is used, and the response is read in one piece. -/
def late : TwoTurns := ⟨⟨9093, []⟩, 2000000000, ⟨[116], 0, none, some [1, 2], none⟩, 3, 1, 7, turn0, (caller 3 postOne 5).map .mock, asksFor 1 askFetch 7 14 ++ [.receive 1 1000]⟩

def postAt : PostCall := ⟨[116], 0, none, some [1, 2], some ([], 5000000000)⟩
/-- ExtendedPost. -/
def earlyAt : TwoTurns := { early with call := postAt, post := (caller 1 postAt.call 5).map .mock }
def lateAt : TwoTurns := { late with call := postAt, post := (caller 3 postAt.call 5).map .mock }

set_option maxRecDepth 100000 in
theorem early_ok : early.Ok := by
  refine ⟨by decide +kernel, by decide +kernel, by decide +kernel, by decide +kernel, rfl, rfl, rfl, by decide +kernel, by decide +kernel, by decide +kernel, by decide +kernel,
    by decide +kernel, ?_, by decide +kernel, by decide +kernel, by unfold FitsBuffer; decide +kernel, by decide +kernel, by decide +kernel, framed_of (by decide +kernel) (by decide +kernel)⟩
  rintro d (rfl | rfl) hd
  · exact absurd rfl hd
  · decide +kernel

set_option maxRecDepth 100000 in
theorem late_ok : late.Ok := by
  refine ⟨by decide +kernel, by decide +kernel, by decide +kernel, by decide +kernel, rfl, rfl, rfl, by decide +kernel, by decide +kernel, by decide +kernel, by decide +kernel,
    by decide +kernel, ?_, by decide +kernel, by decide +kernel, by unfold FitsBuffer; decide +kernel, by decide +kernel, by decide +kernel, framed_of (by decide +kernel) (by decide +kernel)⟩
  rintro d (rfl | rfl) hd
  · decide +kernel
  · exact absurd rfl hd

set_option maxRecDepth 100000 in
theorem earlyAt_ok : earlyAt.Ok := by
  refine ⟨by decide +kernel, by decide +kernel, by decide +kernel, by decide +kernel, rfl, rfl, rfl, by decide +kernel, by decide +kernel, by decide +kernel, by decide +kernel,
    by decide +kernel, ?_, by decide +kernel, by decide +kernel, by unfold FitsBuffer; decide +kernel, by decide +kernel, by decide +kernel, framed_of (by decide +kernel) (by decide +kernel)⟩
  rintro d (rfl | rfl) hd
  · exact absurd rfl hd
  · decide +kernel

set_option maxRecDepth 100000 in
theorem lateAt_ok : lateAt.Ok := by
  refine ⟨by decide +kernel, by decide +kernel, by decide +kernel, by decide +kernel, rfl, rfl, rfl, by decide +kernel, by decide +kernel, by decide +kernel, by decide +kernel,
    by decide +kernel, ?_, by decide +kernel, by decide +kernel, by unfold FitsBuffer; decide +kernel, by decide +kernel, by decide +kernel, framed_of (by decide +kernel) (by decide +kernel)⟩
  rintro d (rfl | rfl) hd
  · decide +kernel
  · exact absurd rfl hd

set_option maxRecDepth 100000 in
/-- The hypotheses of `C116` for runs with SimplePost: the clients read the same, except for the time. -/
example : ∃ us us', List.Forall₂ Received early.uses us ∧ List.Forall₂ Received late.uses us' ∧ List.Forall₂ (SameUse false) us us' ∧ SameData false (data early.n2.sys) (data late.n2.sys) :=
  C116 false (early.oneAtATime early_ok) (late.oneAtATime late_ok) (.cons (.post _) (.cons (.request ..) .nil)) nofun
    (early.records (by decide +kernel)) (early.names (by decide +kernel)) (early.small_replies early_ok (by decide +kernel) (by decide +kernel))
    (late.records (by decide +kernel)) (late.names (by decide +kernel)) (late.small_replies late_ok (by decide +kernel) (by decide +kernel))

set_option maxRecDepth 100000 in
/-- The hypotheses of `C116` for runs with ExtendedPost: the clients read the same, with the time. -/
example : ∃ us us', List.Forall₂ Received earlyAt.uses us ∧ List.Forall₂ Received lateAt.uses us' ∧ List.Forall₂ (SameUse true) us us' ∧ SameData true (data earlyAt.n2.sys) (data lateAt.n2.sys) :=
  C116 true (earlyAt.oneAtATime earlyAt_ok) (lateAt.oneAtATime lateAt_ok) (.cons (.post _) (.cons (.request ..) .nil)) (fun _ => by
      intro x hx
      rcases List.mem_cons.1 hx with rfl | hx
      · exact nofun
      · cases List.mem_singleton.1 hx; trivial)
    (earlyAt.records (by decide +kernel)) (earlyAt.names (by decide +kernel)) (earlyAt.small_replies earlyAt_ok (by decide +kernel) (by decide +kernel))
    (lateAt.records (by decide +kernel)) (lateAt.names (by decide +kernel)) (lateAt.small_replies lateAt_ok (by decide +kernel) (by decide +kernel))

instance decMessage : DecidableEq MessageView := inferInstanceAs (DecidableEq (I64 × I64 × Option Bytes × Option Bytes))
instance decPartition : DecidableEq (I32 × I16 × I64 × List MessageView) := inferInstance
instance decTopic : DecidableEq (Bytes × List (I32 × I16 × I64 × List MessageView)) := inferInstance

/-- What the clients read. -/
def readBy (b : Bytes) : Option (I32 × List (Bytes × List (I32 × I16 × I64 × List MessageView))) := (Client.response Client.fetch b).map fun x => (x.1.1, seen x.1.2.2)

set_option maxRecDepth 100000 in
example : readBy early.reply = some (2, [([116], [(0, 0, 1, [(0, 0, none, some [1, 2])])])]) ∧ readBy late.reply = some (7, [([116], [(0, 0, 1, [(0, 2000, none, some [1, 2])])])]) := by decide +kernel

set_option maxRecDepth 100000 in
example : readBy earlyAt.reply = some (2, [([116], [(0, 0, 1, [(0, 5000, none, some [1, 2])])])]) ∧ readBy lateAt.reply = some (7, [([116], [(0, 0, 1, [(0, 5000, none, some [1, 2])])])]) := by
  decide +kernel

end KM.Props
