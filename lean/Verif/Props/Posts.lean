import Verif.Callers
import Verif.Props.System
import Verif.Props.Store
/-
C57, C58: what a call of SimplePost or ExtendedPost does among all goroutines of the mock, and the order of the timestamps.
-/
namespace KM.Props
open KM KM.Spec

/-- The call, as an exported function of the mock. -/
def PostCall.call (c : PostCall) : Call :=
  match c.extended with
  | none => .simplePost c.topic c.partition c.key c.value
  | some (hs, ts) => .extendedPost c.topic c.partition c.key c.value hs ts

theorem PostCall.entry (c : PostCall) : c.call.entry = .call c.prog := by
  unfold PostCall.call PostCall.prog
  cases c.extended <;> rfl

/-- The posts of caller `i` in a run of the mock. -/
def callPosts (i : Nat) (tr : List SEv) : List (Bytes × I32 × Record) := tr.filterMap fun e =>
  match e with
  | .call j (.post t p r) _ => if j = i then some (t, p, r) else none
  | _ => none

/-- The posts among actions. -/
def postsIn (l : List REv) : List (Bytes × I32 × Record) := l.filterMap fun e =>
  match e.act with
  | .post t p r => some (t, p, r)
  | _ => none

theorem callPosts_eq (i : Nat) (tr : List SEv) : callPosts i tr = postsIn (callsOf i tr) := by
  unfold callPosts postsIn callsOf
  rw [List.filterMap_filterMap]
  congr 1
  funext e
  cases e with
  | call j a r =>
    by_cases h : j = i
    · subst h
      cases a <;> simp
    · cases a <;> simp [h]
  | _ => rfl

theorem ownPosts_eq (tr : List Ev) : ownPosts tr = postsIn (own tr) := by
  induction tr with
  | nil => rfl
  | cons e tr ih =>
    unfold ownPosts postsIn own at *
    obtain ⟨m, a, r⟩ := e
    cases m
    · simpa using ih
    · cases a <;> simp [ih]

/-- A caller leaves a posting function only by a step of its own. -/
theorem step_returns {s s' : Sys} {e : SEv} (h : Sys.Step s e s') {i : Nat} {p : Prog Unit} (hp : s.api i = .call p) (hi : s'.api i = .idle) :
    ∃ c, e = .life (.api i c) := by
  cases h with
  | @life _ ch hn =>
    cases ch with
    | api j c =>
      by_cases e : i = j
      · subst e; exact ⟨c, rfl⟩
      · rw [apiStep_other hn e, hp] at hi; cases hi
    | run g ok => have := ((runStep_frame hn).api i).call.2 hp; rw [this] at hi; cases hi
    | conn c => have := ((connStep_frame hn).api i).call.2 hp; rw [this] at hi; cases hi
    | parentCancel => cases hn; rw [hp] at hi; cases hi
  | conn => have : s.api i = .idle := hi; rw [hp] at this; cases this
  | unroll => have : s.api i = .idle := hi; rw [hp] at this; cases this
  | tick => have : s.api i = .idle := hi; rw [hp] at this; cases this
  | @call j a f r w hp' ha =>
    by_cases e : i = j
    · subst e; simp [Sys.setApi] at hi
    · simp only [Sys.setApi, if_neg e] at hi; rw [hp] at hi; cases hi

/-- **C57**: in every run of the mock, between the call of SimplePost or ExtendedPost and its return the caller posts exactly one record. It carries
what the call was given (and for SimplePost a time between call and return), and when the call returns it is in the log of the partition, after all
records that were there when the call was made. -/
theorem C57_post_takes_effect {s0 s1 s2 : Sys} {i : Nat} {c : PostCall} {tr : List SEv}
    (hc : Sys.Step s0 (.life (.api i c.call)) s1) (hidle : s0.api i = .idle) (h : Sys.Run s1 tr s2) (hin : ∀ c', SEv.life (.api i c') ∉ tr)
    (hret : s2.api i = .call (.ret ())) :
    ∃ (ta tb : List SEv) (r : Record), tr = ta ++ .call i (.post c.topic (BitVec.ofInt 32 c.partition) r) () :: tb ∧
      callPosts i ta = [] ∧ callPosts i tb = [] ∧ c.Matches s0.clock s2.clock r ∧
      (s2.view 0).log c.topic (BitVec.ofInt 32 c.partition) = (s0.view 0).log c.topic (BitVec.ofInt 32 c.partition) ++
        Spec.posts (effectsOf ta) c.topic (BitVec.ofInt 32 c.partition) ++ r :: Spec.posts (effectsOf tb) c.topic (BitVec.ofInt 32 c.partition) := by
  obtain ⟨hd, hk, hapi⟩ : s1.ds = s0.ds ∧ s1.clock = s0.clock ∧ s1.api i = .call c.prog := by
    cases hc with
    | life hn =>
      obtain ⟨_, h1, h2, _⟩ := next_data hn
      refine ⟨h1, h2, ?_⟩
      rcases apiStep_self hn with ⟨_, h3⟩ | ⟨h3, _⟩
      · rw [h3, PostCall.entry]
      · exact absurd hidle h3
  rcases h.call hapi (Call.noCancel c.entry) with ⟨p', es, h1, h2, h3, h4⟩ | ⟨t1, t2, sa, e, sb, es, h1, _, h3, h4, h5, _⟩
  · rw [hret] at h1; cases h1
    obtain ⟨r, h5, h6⟩ := postCall_exec h2
    have h7 : callPosts i tr = [(c.topic, BitVec.ofInt 32 c.partition, r)] := by rw [callPosts_eq, ← h3, ← ownPosts_eq, h5]
    obtain ⟨ta, e, tb, h8, h9, h10, h11⟩ := List.filterMap_eq_cons_iff.1 h7
    have he : e = .call i (.post c.topic (BitVec.ofInt 32 c.partition) r) () := by
      cases e with
      | call j a u =>
        cases a <;> simp only [reduceCtorEq] at h10
        case post =>
          split at h10
          · next hj => subst hj; cases h10; rfl
          · cases h10
      | _ => simp at h10
    subst he
    refine ⟨ta, tb, r, h8, ?_, h11, by rw [← hk]; exact h6, ?_⟩
    · unfold callPosts
      rw [List.filterMap_eq_nil_iff]
      exact h9
    · have hl := (C46_kept h).1 c.topic (BitVec.ofInt 32 c.partition)
      have hlog : (s1.view 0).log c.topic (BitVec.ofInt 32 c.partition) = (s0.view 0).log c.topic (BitVec.ofInt 32 c.partition) := by
        unfold World.log Sys.view; rw [hd]
      rw [hl, hlog, h8, effectsOf_append, effectsOf_cons, Spec.posts_append, Spec.posts_append, List.append_assoc]
      congr 2
      simp [effectsOf, Act.effect, Spec.posts]
  · obtain ⟨c', rfl⟩ := step_returns h4 h3 h5
    exact absurd (by rw [h1]; simp) (hin c')

/-! ### C58 -/

theorem posts_effectsOf (tr : List SEv) (t : Bytes) (p : I32) : Spec.posts (effectsOf tr) t p = tr.filterMap fun e =>
    match e with
    | .conn _ (.post t' p' r) _ => if t' = t ∧ p' = p then some r else none
    | .call _ (.post t' p' r) _ => if t' = t ∧ p' = p then some r else none
    | _ => none := by
  induction tr with
  | nil => rfl
  | cons e tr ih =>
    rw [effectsOf_cons, Spec.posts_append, ih, List.filterMap_cons]
    cases e with
    | conn c a r =>
      cases a <;> simp [effectsOf, Act.effect, Spec.posts]
      case post => split <;> rfl
    | call c a r =>
      cases a <;> simp [effectsOf, Act.effect, Spec.posts]
      case post => split <;> rfl
    | _ => rfl

theorem sublist_pair {α : Type} {a b : α} {l : List α} (h : [a, b].Sublist l) : ∃ l1 l2 l3, l = l1 ++ a :: l2 ++ b :: l3 := by
  induction l with
  | nil => cases h
  | cons x l ih =>
    cases h with
    | cons _ h =>
      obtain ⟨l1, l2, l3, rfl⟩ := ih h
      exact ⟨x :: l1, l2, l3, rfl⟩
    | cons_cons _ h =>
      obtain ⟨l2, l3, rfl⟩ := List.append_of_mem (List.singleton_sublist.1 h)
      exact ⟨[], l2, l3, rfl⟩

/-- Splitting a run at an event. -/
theorem run_split {s s' : Sys} {ta tb : List SEv} (h : Sys.Run s (ta ++ tb) s') : ∃ s1, Sys.Run s ta s1 ∧ Sys.Run s1 tb s' := by
  induction ta generalizing s with
  | nil => exact ⟨s, .nil _, h⟩
  | cons e ta ih =>
    cases h with
    | cons h hs =>
      obtain ⟨s1, h1, h2⟩ := ih hs
      exact ⟨s1, .cons h h1, h2⟩

theorem run_clock {s s' : Sys} {tr : List SEv} (h : Sys.Run s tr s') : s.clock ≤ s'.clock := by
  obtain ⟨es, h1, _⟩ := h.steps 0
  exact h1.clock

/-- The call that is about to post is SimplePost: the record is stamped with a time since the call, and this call has not posted before. -/
theorem simple_about_to_post {t t' : Bytes} {part : Int} {p : I32} {k v : Option Bytes} {rec : Record} {f : Unit → Prog Unit} {w w' : World} {es : List Ev}
    (h : Exec w (simplePost t part k v) es w' (.act (.post t' p rec) f)) :
    postsIn (own es) = [] ∧ ∃ ns, w.clock ≤ ns ∧ ns ≤ w'.clock ∧ rec.timestamp = milli ns := by
  rcases exec_act_inv h with ⟨h1, _⟩ | ⟨t1, w1, r1, w2, t2, h1, s1, h2, rfl⟩
  · cases h1
  rcases exec_act_inv h2 with ⟨h3, _⟩ | ⟨t3, w3, r3, w4, t4, h3, s3, h4, rfl⟩
  · cases h3
  rcases exec_act_inv h4 with ⟨h5, _⟩ | ⟨t5, w5, r5, w6, t6, h5, s5, h6, rfl⟩
  · cases h5
  rcases exec_act_inv h6 with ⟨h7, h8⟩ | ⟨t7, w7, r7, w8, t8, h7, s7, h8, rfl⟩
  · have c1 := Int.le_trans h1.1.clock (step_clock s1)
    have c2 := Int.le_trans h3.1.clock (step_clock s3)
    have c3 := h5.1.clock
    have c4 := step_clock s5
    have c5 := h8.1.clock
    obtain ⟨rfl, hr⟩ := s5
    cases h7
    have hr : (r5 : Int) = w6.clock := hr
    refine ⟨?_, w6.clock, by omega, by omega, by rw [← hr]⟩
    rw [← ownPosts_eq, ownPosts_append, ownPosts_env h1.2]
    show ownPosts (t3 ++ _) = _
    rw [ownPosts_append, ownPosts_env h3.2]
    show ownPosts (t5 ++ _) = _
    rw [ownPosts_append, ownPosts_env h5.2]
    show ownPosts t6 = _
    exact ownPosts_env h8.2
  · cases (exec_ret_inv h8).1

/-- The caller makes no ExtendedPost. -/
def NoExtended (i : Nat) (tr : List SEv) : Prop := ∀ t p k v hs ts, SEv.life (.api i (.extendedPost t p k v hs ts)) ∉ tr

theorem no_post_create {part : Int} {ts : List Bytes} {t' : Bytes} {p : I32} {rec : Record} {f : Unit → Prog Unit} {w w' : World} {es : List Ev} :
    ¬ Exec w (createPartitionTopics part ts) es w' (.act (.post t' p rec) f) := by
  intro h
  have : (createPartitionTopics part ts).Only NoPost := by
    clear h
    induction ts with
    | nil => trivial
    | cons t ts ih => exact ⟨nofun, fun _ => ⟨nofun, fun _ => ih⟩⟩
  exact (h.only this).1.1 _ _ _ rfl

theorem no_post_set {t : Bytes} {part : Int} {g : Bytes} {o : I64} {t' : Bytes} {p : I32} {rec : Record} {f : Unit → Prog Unit} {w w' : World} {es : List Ev} :
    ¬ Exec w (setConsumerGroupOffset t part g o) es w' (.act (.post t' p rec) f) := by
  intro h
  have : (setConsumerGroupOffset t part g o).Only NoPost := by
    refine ⟨nofun, fun kt => ?_⟩
    dsimp only
    split
    · refine ⟨nofun, fun kp => ?_⟩
      dsimp only
      split
      · exact ⟨nofun, fun _ => trivial⟩
      · trivial
    · trivial
  exact (h.only this).1.1 _ _ _ rfl

/-- **C58**, the part that holds: what one caller posts with SimplePost is stamped in ascending order, whatever partitions the records go to and whatever
the other goroutines do. -/
theorem C58_per_caller_partial {sv : Server} {clock : Int} {s : Sys} {i : Nat} {ta tb tc : List SEv} {t1 t2 : Bytes} {p1 p2 : I32} {r1 r2 : Record}
    (h : Sys.Run (Sys.new sv clock) (ta ++ .call i (.post t1 p1 r1) () :: tb ++ .call i (.post t2 p2 r2) () :: tc) s)
    (hx : NoExtended i (ta ++ .call i (.post t1 p1 r1) () :: tb ++ .call i (.post t2 p2 r2) () :: tc)) :
    ∃ n1 n2 : Int, clock ≤ n1 ∧ n1 ≤ n2 ∧ n2 ≤ s.clock ∧ r1.timestamp = BitVec.ofInt 64 (n1 / 1000000) ∧ r2.timestamp = BitVec.ofInt 64 (n2 / 1000000) := by
  -- what is known at a post of the caller
  have key : ∀ {t : List SEv} {tp : Bytes} {p : I32} {r : Record} {sx : Sys} {te : List SEv} {s' : Sys}, Sys.Run (Sys.new sv clock) t sx →
      Sys.Run sx (.call i (.post tp p r) () :: te) s' → NoExtended i t →
      ∃ u0 u1 c s1, t = u0 ++ .life (.api i c) :: u1 ∧ callPosts i u1 = [] ∧ Sys.Run (Sys.new sv clock) (u0 ++ [.life (.api i c)]) s1 ∧ Sys.Run s1 u1 sx ∧
        ∃ ns, s1.clock ≤ ns ∧ ns ≤ sx.clock ∧ r.timestamp = BitVec.ofInt 64 (ns / 1000000) := by
    intro t tp p r sx te s' ha hb hx
    cases hb with
    | cons hs _ =>
    cases hs with
    | call hp hst =>
    obtain ⟨u0, u1, v0, v1, c, q, es, g1, g2, g3, g4, g5, g6, g7, g8, g9, g10⟩ := ha.called hp
    have : ∃ tt part k v, c = .simplePost tt part k v := by
      cases c <;> cases g6
      · exact ⟨_, _, _, _, rfl⟩
      · exact (hx _ _ _ _ _ _ (g1 ▸ List.mem_append_right _ List.mem_cons_self)).elim
      · exact absurd g8 no_post_create
      · exact absurd g8 no_post_set
    obtain ⟨tt, part, k, v, rfl⟩ := this
    cases g6
    obtain ⟨x1, x2⟩ := simple_about_to_post g8
    exact ⟨u0, u1, _, v1, g1, by rw [callPosts_eq, ← g9]; exact x1, g2.append (.cons g3 (.nil _)), g4, x2⟩
  obtain ⟨sy, hy1, hy2⟩ := run_split h
  obtain ⟨v0, v1, c', s2, e2, hnp, k2, k3, n2, h4, h5, h6⟩ := key hy1 hy2 (fun t p k v hs ts hm => hx t p k v hs ts (List.mem_append_left _ hm))
  -- the first post precedes the second call
  have hsplit : ∃ tm, v0 = ta ++ .call i (.post t1 p1 r1) () :: tm := by
    rcases List.append_eq_append_iff.1 e2 with ⟨as, e3, e4⟩ | ⟨cs, e3, e4⟩
    · cases as with
      | nil => cases e4
      | cons a as =>
        rw [List.cons_append] at e4
        cases e4
        exact ⟨as, e3⟩
    · cases cs with
      | nil => cases e4
      | cons a cs =>
        rw [List.cons_append] at e4
        injection e4 with e5 e6
        rw [e6] at hnp
        have : callPosts i (cs ++ .call i (.post t1 p1 r1) () :: tb) ≠ [] := by
          unfold callPosts
          rw [List.filterMap_append]
          simp
        exact absurd hnp this
  obtain ⟨tm, rfl⟩ := hsplit
  rw [List.append_assoc] at k2
  obtain ⟨sx, k4, k5⟩ := run_split k2
  obtain ⟨u0, u1, c, s1, _, _, k1, _, n1, h1, h2, h3⟩ := key k4 k5 (fun t p k v hs ts hm =>
    hx t p k v hs ts (by rw [List.append_assoc]; exact List.mem_append_left _ hm))
  have c1 := run_clock k1
  have c2 := run_clock k5
  have c3 := run_clock hy2
  refine ⟨n1, n2, ?_, by omega, by omega, h3, h6⟩
  have : (Sys.new sv clock).clock = clock := rfl
  omega

theorem ofInt_le {a b : Int} (h : a ≤ b) (h0 : 0 ≤ a) (h1 : b < 2 ^ 63) : (BitVec.ofInt 64 a).toInt ≤ (BitVec.ofInt 64 b).toInt := by
  rw [BitVec.toInt_ofInt, BitVec.toInt_ofInt, Int.bmod_eq_of_le (by omega) (by omega), Int.bmod_eq_of_le (by omega) (by omega)]
  exact h

/-- Connections do not post. -/
theorem conn_no_post {sv : Server} {clock : Int} {s : Sys} {ta tb : List SEv} {c : Nat} {t : Bytes} {p : I32} {r : Record} :
    ¬ Sys.Run (Sys.new sv clock) (ta ++ .conn c (.post t p r) () :: tb) s := by
  intro h
  obtain ⟨s1, h1, h2⟩ := run_split h
  cases h2 with
  | cons h2 _ =>
  cases h2 with
  | conn hc hp ha =>
  obtain ⟨w, w', e1, e2, p2, h3, _⟩ := h1.connection_at (.nil s1) hc hp
  rcases (h3.only (handle_connAct sv)).1.1 with (h4 | ⟨t, p, g, h4⟩) | ⟨t, p, g, o, h4⟩ <;> cases h4

/-- **C58**, the part that holds, for the log: if all records of a partition were posted by one caller with SimplePost, their timestamps ascend. -/
theorem C58_one_poster_partial {sv : Server} {clock : Int} {s : Sys} {tr : List SEv} (h : Sys.Run (Sys.new sv clock) tr s) {t : Bytes} {p : I32} {i : Nat}
    (hone : ∀ j r, SEv.call j (.post t p r) () ∈ tr → j = i) (hx : NoExtended i tr) (h0 : 0 ≤ clock) (h1 : s.clock < 2 ^ 63 * 1000000) :
    ((s.view 0).log t p).Pairwise fun a b => a.timestamp.toInt ≤ b.timestamp.toInt := by
  have hlog := (C46_kept h).1 t p
  have hnil : ((Sys.new sv clock).view 0).log t p = [] := rfl
  rw [hlog, hnil, List.nil_append, posts_effectsOf, List.pairwise_filterMap, List.pairwise_iff_forall_sublist]
  intro a b hab x hxa y hyb
  obtain ⟨l1, l2, l3, rfl⟩ := sublist_pair hab
  have ev : ∀ {e : SEv} {z : Record}, e ∈ l1 ++ a :: l2 ++ b :: l3 → (match e with
      | .conn _ (.post t' p' r) _ => if t' = t ∧ p' = p then some r else none
      | .call _ (.post t' p' r) _ => if t' = t ∧ p' = p then some r else none
      | _ => none) = some z → e = .call i (.post t p z) () := by
    intro e z hm hz
    cases e with
    | conn c act r =>
      cases act <;> simp only [reduceCtorEq] at hz
      obtain ⟨m1, m2, hm⟩ := List.append_of_mem hm
      rw [hm] at h
      exact absurd h conn_no_post
    | call c act r =>
      cases act <;> simp only [reduceCtorEq] at hz
      split at hz
      · next hc =>
        obtain ⟨rfl, rfl⟩ := hc
        cases hz
        rw [hone _ _ hm]
      · cases hz
    | _ => simp at hz
  have ha := ev (by simp) hxa
  have hb := ev (by simp) hyb
  subst ha hb
  obtain ⟨n1, n2, k1, k2, k3, k4, k5⟩ := C58_per_caller_partial h hx
  rw [k4, k5]
  exact ofInt_le (by omega) (by omega) (by omega)

/-- Caller 0 reads the clock in SimplePost, then caller 1 makes a whole SimplePost later, then caller 0 goes on. -/
def lateTicks : List Pick := caller 0 (.simplePost [116] 0 none (some [1])) 4
def overtakes : List Pick := caller 1 (.simplePost [116] 0 none (some [2])) 6 ++ caller 0 (.simplePost [116] 0 none (some [1])) 2

def lateState : Sys := { after lateTicks with clock := (after lateTicks).clock + 5000000 }

/-- The events of a schedule. -/
def eventsOf (ps : List Pick) (s : Sys) : List SEv := ((Sys.play ps s).map Prod.fst).getD []
def stateAfter (ps : List Pick) (s : Sys) : Sys := ((Sys.play ps s).map Prod.snd).getD s

theorem stateAfter_run (ps : List Pick) (s : Sys) : Sys.Run s (eventsOf ps s) (stateAfter ps s) := by
  unfold eventsOf stateAfter
  cases h : Sys.play ps s with
  | none => exact .nil _
  | some x => exact Sys.play_sound h

def isExtended : SEv → Bool
  | .life (.api _ (.extendedPost ..)) => true
  | _ => false

theorem noExtended {tr : List SEv} (h : tr.any isExtended = false) (i : Nat) : NoExtended i tr := by
  intro t p k v hs ts hm
  have := List.any_eq_false.1 h _ hm
  exact this rfl

/-- C58 is false: two callers of SimplePost, and the log has the later timestamp first (SimplePost reads the clock before it takes the lock). -/
theorem C58_false : ∃ (tr : List SEv) (s : Sys), Sys.Run (Sys.new ⟨9092, []⟩ 0) tr s ∧ (s.api 0 matches .idle) ∧ (s.api 1 matches .idle) ∧
    (∀ i, NoExtended i tr) ∧ (s.view 0).log [116] 0 = [⟨0, 5, none, some [2], []⟩, ⟨0, 0, none, some [1], []⟩] :=
  ⟨eventsOf lateTicks (Sys.new ⟨9092, []⟩ 0) ++ .tick 5000000 :: eventsOf overtakes lateState, stateAfter overtakes lateState,
    (stateAfter_run ..).append (.cons (.tick _) (stateAfter_run ..)), by decide +kernel, by decide +kernel, noExtended (by decide +kernel), by decide +kernel⟩

/-- The hypotheses of the theorems above: one caller posts twice, with another record in between that goes elsewhere, and the clock moves on. -/
example : ∃ (tr : List SEv) (s : Sys), Sys.Run (Sys.new ⟨9092, []⟩ 0) tr s ∧ (∀ j r, SEv.call j (.post [116] 0 r) () ∈ tr → j = 0) ∧ NoExtended 0 tr ∧
    (s.view 0).log [116] 0 = [⟨0, 0, none, some [1], []⟩, ⟨0, 5, none, some [3], []⟩] := by
  let s1 : Sys := stateAfter (caller 0 (.simplePost [116] 0 none (some [1])) 6 ++ caller 1 (.simplePost [117] 0 none (some [2])) 6) (Sys.new ⟨9092, []⟩ 0)
  let s2 : Sys := { s1 with clock := s1.clock + 5000000 }
  refine ⟨eventsOf (caller 0 (.simplePost [116] 0 none (some [1])) 6 ++ caller 1 (.simplePost [117] 0 none (some [2])) 6) (Sys.new ⟨9092, []⟩ 0) ++ .tick 5000000 ::
    eventsOf (caller 0 (.simplePost [116] 0 none (some [3])) 6) s2, stateAfter (caller 0 (.simplePost [116] 0 none (some [3])) 6) s2,
    (stateAfter_run ..).append (.cons (.tick _) (stateAfter_run ..)), ?_, noExtended (by decide +kernel) 0, by decide +kernel⟩
  intro j r hm
  have : ∀ e ∈ eventsOf (caller 0 (.simplePost [116] 0 none (some [1])) 6 ++ caller 1 (.simplePost [117] 0 none (some [2])) 6) (Sys.new ⟨9092, []⟩ 0) ++ .tick 5000000 ::
    eventsOf (caller 0 (.simplePost [116] 0 none (some [3])) 6) s2, (match e with
      | .call j (.post t _ _) _ => j == 0 || t == [117]
      | _ => true : Bool) = true := by decide +kernel
  simpa using this _ hm

/-- A call of ExtendedPost from call to return, while another caller posts to the same partition. -/
example : ∃ (s1 s2 : Sys) (tr : List SEv), Sys.Step (Sys.new ⟨9092, []⟩ 0) (.life (.api 0 (PostCall.call ⟨[116], 0, none, some [1], some ([([104], none)], 7000000)⟩))) s1 ∧
    Sys.Run s1 tr s2 ∧ (∀ c', SEv.life (.api 0 c') ∉ tr) ∧ s2.api 0 = .call (.ret ()) ∧
    (s2.view 0).log [116] 0 = [⟨0, 0, none, some [9], []⟩, ⟨0, 7, none, some [1], [([104], none)]⟩] := by
  let c : Call := .extendedPost [116] 0 none (some [1]) [([104], none)] 7000000
  let ps : List Pick := caller 0 c 2 ++ caller 1 (.simplePost [116] 0 none (some [9])) 6 ++ caller 0 c 2
  let s1 : Sys := (Sys.new ⟨9092, []⟩ 0).setApi 0 c.entry
  refine ⟨s1, stateAfter ps s1, eventsOf ps s1, .life rfl, stateAfter_run _ _, ?_, rfl, by decide +kernel⟩
  intro c' hm
  have : ∀ e ∈ eventsOf ps s1, (match e with
      | .life (.api i _) => i != 0
      | _ => true : Bool) = true := by decide +kernel
  simpa using this _ hm

end KM.Props
