import Verif.Props.Tally
import Verif.Props.CountCases
import Verif.Props.PollsCases
import Verif.Props.OnceCases
/-
C131: two goroutines of a test post, the second call overlaps with a fetch of a consumer, which then fetches again.
-/
namespace KM.Props
open KM KM.Spec

def latePost : PostCall := ⟨[116], 0, some [7], some [3], none⟩

/-- The second caller begins, the first one posts; the consumer fetches; the second caller goes on to its end; the consumer fetches what comes next. -/
def pollBoth : List NPick := (starts 0 ++ opens 0 ++ accepts 0 ++ caller 2 latePost.call 2 ++ caller 1 postOne 6).map .mock ++ asksFor 0 askFetch 2 14 ++ [.receive 0 1000] ++
  (caller 2 latePost.call 4).map .mock ++ asksFor 0 askNext 3 14 ++ [.receive 0 1000]

set_option maxRecDepth 100000 in
theorem pollBoth_plays : (Net.play pollBoth (Net.new ⟨9092, []⟩ 0)).isSome = true := by decide +kernel

def gathered : NetTimeline ⟨9092, []⟩ 0 := netCourse pollBoth pollBoth_plays

theorem gathered_listed : Listed ⟨9092, []⟩ 0 gathered.st gathered.ev 70 := ⟨gathered.start, fun k hk => gathered.step k hk⟩

/-- Only events 20 and 22 call a function that posts. -/
def gatheredAt (n : Net) (k : Nat) : NEv → Bool
  | .mock (.life (.api i (.simplePost ..))) | .mock (.life (.api i (.extendedPost ..))) =>
    match n.sys.api i with
    | .idle => k == 20 || k == 22
    | _ => true
  | _ => true

set_option maxRecDepth 100000 in
theorem gathered_calls : ((List.range 70).all fun k => gatheredAt (gathered.st k) k (gathered.ev k)) = true := by decide +kernel

theorem gathered_all (k i : Nat) (call : PostCall) (hk : k < 70) (h : PostAt gathered.st gathered.ev [116] 0 k i call) : k ∈ [20, 22] := by
  have := List.all_eq_true.1 gathered_calls k (List.mem_range.2 hk)
  rw [h.event] at this
  unfold PostCall.call at this
  split at this <;> simpa [gatheredAt, h.idle] using this

set_option maxRecDepth 100000 in
theorem gathered_posts : PostAt gathered.st gathered.ev [116] 0 20 2 latePost ∧ PostAt gathered.st gathered.ev [116] 0 22 1 firstPost := ⟨⟨rfl, rfl, rfl, rfl⟩, ⟨rfl, rfl, rfl, rfl⟩⟩

set_option maxRecDepth 100000 in
theorem gathered_returned : ReturnedBy gathered.st 20 2 51 ∧ ReturnedBy gathered.st 22 1 51 := ⟨⟨51, by decide, by decide, .inr rfl⟩, ⟨51, by decide, by decide, .inr rfl⟩⟩

theorem gathered_done : ∀ k ∈ [20, 22], ∃ i call, PostAt gathered.st gathered.ev [116] 0 k i call ∧ ReturnedBy gathered.st k i 51 := by
  intro k hk
  rcases List.mem_cons.1 hk with rfl | hk
  · exact ⟨2, latePost, gathered_posts.1, gathered_returned.1⟩
  · cases List.mem_singleton.1 hk
    exact ⟨1, firstPost, gathered_posts.2, gathered_returned.2⟩

set_option maxRecDepth 100000 in
theorem gathered_small : SmallReplies ⟨9092, []⟩ (actsOf 0 (mocks (upTo gathered.ev 70))) := smallReplies_check gathered_listed.run 0 (by decide +kernel)

set_option maxRecDepth 100000 in
theorem gathered_asked : frames (asked 0 (upTo gathered.ev 51)) = [askFetch.message 2 ownName] ∧
    frames (asked 0 (upTo gathered.ev 70)) = [askFetch.message 2 ownName, askNext.message 3 ownName] := by decide +kernel

/-- The responses, with their sizes. -/
def gatheredOne : Bytes := got 0 (upTo gathered.ev 51)
def gatheredTwo : Bytes := (got 0 (upTo gathered.ev 70)).drop gatheredOne.length

/-- What the consumer receives second. -/
def lateMessage : MessageV1 := ⟨1, 36, 0x653e1a65#32, 1, 0, 0, some [7], some [3]⟩

set_option synthInstance.maxSize 1000 in
set_option maxRecDepth 100000 in
theorem gathered_read : Client.response Client.fetch gatheredOne = some ((2, 0, [([116], [⟨0, 0, 1, [theMessage]⟩])]), []) ∧
    Client.response Client.fetch gatheredTwo = some ((3, 0, [([116], [⟨0, 0, 2, [lateMessage]⟩])]), []) := by decide +kernel

set_option maxRecDepth 100000 in
theorem gathered_poll_one : (Poll.mk 0 0 [theMessage]).Seen (upTo gathered.ev 70) [116] 0 0 := by
  refine .mk (msg := askFetch.message 2 ownName) (r := gatheredOne.drop 4) (j := 0) (by rw [gathered_asked.2]; rfl) (accepted_proper askFetch_wf _ ownName_short) (by unfold FitsBuffer; decide +kernel) ?_ rfl
    (by decide +kernel) (by decide +kernel) (framed_of (by decide +kernel) (by decide +kernel)) gathered_read.1 rfl rfl
  intro t ht
  simp only [List.mem_singleton] at ht
  exact ⟨_, by rw [ht]⟩

set_option maxRecDepth 100000 in
theorem gathered_poll_two : (Poll.mk 0 1 [lateMessage]).Seen (upTo gathered.ev 70) [116] 0 1 := by
  refine .mk (msg := askNext.message 3 ownName) (r := gatheredTwo.drop 4) (j := 0) (by rw [gathered_asked.2]; rfl) (accepted_proper askNext_wf _ ownName_short) (by unfold FitsBuffer; decide +kernel) ?_ rfl
    (by decide +kernel) (by decide +kernel) (framed_of (by decide +kernel) (by decide +kernel)) gathered_read.2 rfl rfl
  intro t ht
  simp only [List.mem_singleton] at ht
  exact ⟨_, by rw [ht]⟩

theorem gathered_polled : Polled (upTo gathered.ev 70) [116] 0 0 ([⟨0, 0, [theMessage]⟩] ++ [⟨0, 1, [lateMessage]⟩]) := .more (.more .none gathered_poll_one) gathered_poll_two

set_option maxRecDepth 100000 in
theorem gathered_room : ∀ t p, ∀ x ∈ ((gathered.st 70).sys.view 0).log t p, wireSize x < 2 ^ 31 :=
  (roomy_of (k := 0) (tr := []) (s2 := (gathered.st 70).sys) (by decide +kernel) (by decide)).records

set_option maxRecDepth 100000 in
theorem gathered_log : (((gathered.st 70).sys.view 0).log [116] 0).length = 2 := by decide +kernel

/-- The hypotheses of `C131_polled` and `C131_exact`, and what the theorem says of the run: the two messages come from the two calls. -/
example : ∃ ks, ks.Perm [20, 22] ∧ List.Forall₂ (MessageOf gathered.st gathered.ev 70 [116] 0) ks [theMessage, lateMessage] :=
  C131_exact gathered_listed (m := 51) (by decide) gathered_room gathered_polled
    (fun y hy => by
      rcases List.mem_cons.1 hy with rfl | hy
      · exact gathered_small
      · cases List.mem_singleton.1 hy; exact gathered_small)
    (by rw [gathered_log]; decide) (Nat.le_of_eq (congrArg List.length gathered_asked.1)) (by decide) gathered_all gathered_done

/-! ### Two members of a group -/

/-- The run of C113, as a schedule. -/
def membersPicks : List NPick := turn0 ++ turn1 ++ turn2 ++ turn3 ++ turn4 ++ turn5 ++ turn6

set_option maxRecDepth 100000 in
theorem members_plays : (Net.play membersPicks (Net.new ⟨9092, []⟩ 0)).isSome = true := by decide +kernel

def members : NetTimeline ⟨9092, []⟩ 0 := netCourse membersPicks members_plays

theorem members_listed : Listed ⟨9092, []⟩ 0 members.st members.ev membersPicks.length := ⟨members.start, fun k hk => members.step k hk⟩

theorem play_events {ps : List NPick} {n : Net} (h : (Net.play ps n).isSome = true) : Net.play ps n = some (netEvents ps n, netAfter ps n) := by
  unfold netEvents netAfter
  cases hp : Net.play ps n with
  | none => rw [hp] at h; cases h
  | some x => rfl

theorem play_append {ps qs : List NPick} {n n1 n2 : Net} {tr tr' : List NEv} (h : Net.play ps n = some (tr, n1)) (h' : Net.play qs n1 = some (tr', n2)) :
    Net.play (ps ++ qs) n = some (tr ++ tr', n2) := by
  induction ps generalizing n tr with
  | nil => cases h; exact h'
  | cons p ps ih =>
    unfold Net.play at h
    split at h
    · cases h
    · next e n1 hp =>
      split at h
      · cases h
      · next es n3 hq =>
        cases h
        rw [List.cons_append]
        unfold Net.play
        rw [hp]
        dsimp only
        rw [ih hq]
        rfl

theorem play_upTo {ps : List NPick} {n n' : Net} {tr : List NEv} (h : Net.play ps n = some (tr, n')) : upTo (netEvAt ps n) ps.length = tr := by
  unfold upTo
  induction ps generalizing n tr with
  | nil => cases h; rfl
  | cons p ps ih =>
    unfold Net.play at h
    split at h
    · cases h
    · next e n1 hp =>
      split at h
      · cases h
      · next es n3 hq =>
        cases h
        rw [List.length_cons, List.range_succ_eq_map, List.map_cons, List.map_map]
        have e0 : netEvAt (p :: ps) n 0 = e := by unfold netEvAt; rw [hp]
        have e1 : netEvAt (p :: ps) n ∘ Nat.succ = netEvAt ps n1 := by funext i; show netEvAt (p :: ps) n (i + 1) = _; conv => lhs; unfold netEvAt; rw [hp]
        rw [e0, e1, ih hq]

set_option maxRecDepth 100000 in
theorem turns_play : (Net.play turn0 (Net.new ⟨9092, []⟩ 0)).isSome = true ∧ (Net.play turn1 net0).isSome = true ∧ (Net.play turn2 net1).isSome = true ∧ (Net.play turn3 net2).isSome = true ∧
    (Net.play turn4 net3).isSome = true ∧ (Net.play turn5 net4).isSome = true ∧ (Net.play turn6 net5).isSome = true := by decide +kernel

theorem members_play : Net.play membersPicks (Net.new ⟨9092, []⟩ 0) = some (tr6, net6) := by
  obtain ⟨h0, h1, h2, h3, h4, h5, h6⟩ := turns_play
  exact play_append (play_append (play_append (play_append (play_append (play_append (play_events h0) (play_events h1)) (play_events h2)) (play_events h3)) (play_events h4)) (play_events h5))
    (play_events h6)

theorem members_events : upTo members.ev membersPicks.length = tr6 := play_upTo members_play

set_option maxRecDepth 100000 in
theorem members_room : ∀ t p, ∀ x ∈ ((members.st membersPicks.length).sys.view 0).log t p, wireSize x < 2 ^ 31 :=
  (roomy_of (k := 0) (tr := []) (s2 := (members.st membersPicks.length).sys) (by decide +kernel) (by decide)).records

set_option maxRecDepth 100000 in
theorem members_log : (((members.st membersPicks.length).sys.view 0).log [116] 0).length = 2 := by decide +kernel

set_option maxRecDepth 100000 in
theorem members_late : (frames (asked 1 (upTo members.ev (membersPicks.length - 19)))).length = 1 := by decide +kernel

/-- The hypotheses of `C131_group`, and what the theorem says of the run: the messages of the two members come from different calls. -/
example : ∃ ks : List Nat, ks.Nodup ∧ List.Forall₂ (MessageOf members.st members.ev membersPicks.length [116] 0) ks [theMessage, anotherMessage] := by
  have e := members_events
  obtain ⟨ks, h1, h2, _⟩ := C131_group members_listed (m := membersPicks.length - 19) (Nat.sub_le _ _) members_room (ps := [⟨0, 1, [theMessage]⟩]) (x := ⟨1, 1, [anotherMessage]⟩) (g := [103])
    (by rw [e]; exact relay) (by rw [e]; exact relay_small) (by rw [members_log]; decide) (by rw [e]; exact relay_not_set) (Nat.le_of_eq members_late)
  exact ⟨ks, h1, h2⟩

set_option maxRecDepth 100000 in
/-- The second call, event number 104, was made after the first one, event number 27, had returned. -/
example : PostAt members.st members.ev [116] 0 27 1 firstPost ∧ ReturnedBy members.st 27 1 104 ∧ PostAt members.st members.ev [116] 0 104 1 posting :=
  ⟨⟨rfl, rfl, rfl, rfl⟩, ⟨104, by decide, by decide, .inr rfl⟩, ⟨rfl, rfl, rfl, rfl⟩⟩

end KM.Props
