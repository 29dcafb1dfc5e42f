import Verif.Mute
import Verif.Props.Origin
/-
C120: clients that only look, or talk nonsense, make no difference to the others.
-/
namespace KM.Props
open KM KM.Spec

/-- What happens but for the clients in `Q` and the passing of time. -/
def besides (Q : Nat → Bool) : List NEv → List NEv := List.filter fun
  | .mock (.conn c _ _) => !Q c
  | .mock (.unroll c) => !Q c
  | .mock (.tick _) => false
  | .send c _ => !Q c
  | .receive c _ => !Q c
  | _ => true

/-- The links of the other clients. -/
def muteLinks (Q : Nat → Bool) (L : Nat → Link) : Nat → Link := fun c => if Q c then ⟨[], [], false⟩ else L c

theorem besides_append (Q : Nat → Bool) (a b : List NEv) : besides Q (a ++ b) = besides Q a ++ besides Q b := List.filter_append ..

theorem muteLinks_set {Q : Nat → Bool} {c : Nat} (hq : Q c = true) (L : Nat → Link) (l : Link) : muteLinks Q (setLink L c l) = muteLinks Q L := by
  funext d
  unfold muteLinks setLink
  split
  · rfl
  · next h => rw [if_neg (by rintro rfl; exact h hq)]

theorem muteLinks_set' {Q : Nat → Bool} {c : Nat} (hq : Q c = false) (L : Nat → Link) (l : Link) : muteLinks Q (setLink L c l) = setLink (muteLinks Q L) c l := by
  funext d
  unfold muteLinks setLink
  by_cases e : d = c
  · subst e; rw [hq]; simp
  · simp [e]

theorem muteLinks_at {Q : Nat → Bool} {c : Nat} (hq : Q c = false) (L : Nat → Link) : muteLinks Q L c = L c := by
  unfold muteLinks; rw [hq]; rfl

theorem carries_mute {Q : Nat → Bool} {e : SEv} {L L1 : Nat → Link} (h : Carries e L L1) (hq : hushed Q e = false) : Carries e (muteLinks Q L) (muteLinks Q L1) := by
  cases e with
  | conn c a r =>
    have hq : Q c = false := hq
    have hl := muteLinks_at hq L
    cases a with
    | recv =>
      cases r with
      | data b =>
        obtain ⟨h1, h2, rest, h3, h4⟩ := h
        exact ⟨h1, h2, rest, by rw [hl]; exact h3, by rw [h4, muteLinks_set' hq, hl]⟩
      | timeout => exact congrArg (muteLinks Q) h
      | closed => exact congrArg (muteLinks Q) h
      | failed => exact congrArg (muteLinks Q) h
    | write b =>
      cases r with
      | true =>
        obtain ⟨h1, h2⟩ := h
        exact ⟨by rw [hl]; exact h1, by rw [h2, muteLinks_set' hq, hl]⟩
      | false =>
        rcases h with ⟨h1, rfl⟩ | ⟨h1, x, y, h2, h3, h4⟩
        · exact .inl ⟨by rw [hl]; exact h1, rfl⟩
        · exact .inr ⟨by rw [hl]; exact h1, x, y, h2, h3, by rw [h4, muteLinks_set' hq, hl]⟩
    | isStopping => exact ⟨h.1, congrArg (muteLinks Q) h.2⟩
    | _ => exact congrArg (muteLinks Q) h
  | _ => exact congrArg (muteLinks Q) h

theorem carries_hushed {Q : Nat → Bool} {c : Nat} {a : Act} {r : a.Resp} {L L1 : Nat → Link} (h : Carries (.conn c a r) L L1) (hq : Q c = true) : muteLinks Q L1 = muteLinks Q L := by
  cases a with
  | recv =>
    cases r with
    | data b =>
      obtain ⟨h1, h2, rest, h3, h4⟩ := h
      rw [h4, muteLinks_set hq]
    | timeout => exact congrArg (muteLinks Q) h
    | closed => exact congrArg (muteLinks Q) h
    | failed => exact congrArg (muteLinks Q) h
  | write b =>
    cases r with
    | true => rw [h.2, muteLinks_set hq]
    | false =>
      rcases h with ⟨h1, rfl⟩ | ⟨h1, x, y, h2, h3, h4⟩
      · rfl
      · rw [h4, muteLinks_set hq]
  | isStopping => exact congrArg (muteLinks Q) h.2
  | _ => exact congrArg (muteLinks Q) h

/-- Steps that have nothing to do with the links. -/
theorem run_carried {s t : Sys} {es : List SEv} (h : Sys.Run s es t) (L : Nat → Link) (hc : ∀ e ∈ es, Carries e L L) : Net.Run ⟨s, L⟩ (es.map .mock) ⟨t, L⟩ := by
  induction h with
  | nil => exact .nil _
  | cons h _ ih => exact .cons (.mock h (hc _ (by simp))) (ih fun e he => hc e (by simp [he]))

/-- What a connection does, if its client has sent no OffsetCommit request. -/
theorem looks {sv : Server} {clock : Int} {tr : List NEv} {n n' : Net} (h : Net.Run (Net.new sv clock) tr n) {c : Nat} {a : Act} {r : a.Resp}
    (hs : Net.Step n (.mock (.conn c a r)) n') (hc : ∀ i t p g o, ¬ CommitSent tr c i t p g o) : NoEffect a ∧ a ≠ .cancel := by
  have h' := h.append (.cons hs (.nil _))
  obtain ⟨q, hq⟩ := acts_own h'.sys c
  have hacts : actsOf c (mocks (tr ++ [.mock (.conn c a r)])) = actsOf c (mocks tr) ++ [⟨a, r⟩] := by
    rw [mocks_append, actsOf_append, show mocks [.mock (.conn c a r)] = [.conn c a r] from rfl, actsOf_self]
  rw [hacts] at hq
  have mem : (⟨a, r⟩ : REv) ∈ actsOf c (mocks tr) ++ [⟨a, r⟩] := by simp
  refine ⟨?_, (hq.only (handle_noCancel sv)).2 _ mem⟩
  rcases (hq.only (handle_connAct sv)).2 _ mem with h1 | ⟨t, p, g, o, h1⟩
  · exact h1
  · have h1 : a = .commit t p g o := h1
    subst h1
    obtain ⟨i, t', p', g', o', _, h2⟩ := conn_effect h hs nofun
    exact absurd h2 (hc _ _ _ _ _)

/-- A run of the mock without what the clients in `Q` say. -/
theorem net_mute {sv : Server} {clock : Int} {tr : List NEv} {n : Net} (h : Net.Run (Net.new sv clock) tr n) (Q : Nat → Bool)
    (hc : ∀ c, Q c = true → ∀ i t p g o, ¬ CommitSent tr c i t p g o) :
    ∃ tr' ds d, Net.Run (Net.new sv clock) tr' ⟨n.sys.mute Q ds d, muteLinks Q n.links⟩ ∧ besides Q tr' = besides Q tr ∧ (∀ c b, Q c = true → .send c b ∉ tr' ∧ .receive c b ∉ tr') ∧
      n.sys.ds.sight = ds.sight ∧ SameDone n.sys d := by
  revert hc
  refine net_snoc (P := fun tr n => (∀ c, Q c = true → ∀ i t p g o, ¬ CommitSent tr c i t p g o) →
    ∃ tr' ds d, Net.Run (Net.new sv clock) tr' ⟨n.sys.mute Q ds d, muteLinks Q n.links⟩ ∧ besides Q tr' = besides Q tr ∧ (∀ c b, Q c = true → .send c b ∉ tr' ∧ .receive c b ∉ tr') ∧
      n.sys.ds.sight = ds.sight ∧ SameDone n.sys d) ?_ ?_ h
  · intro _
    refine ⟨[], [], [], ?_, rfl, fun _ _ _ => ⟨List.not_mem_nil, List.not_mem_nil⟩, rfl, fun _ => rfl⟩
    have : (⟨(Sys.new sv clock).mute Q [] [], muteLinks Q (Net.new sv clock).links⟩ : Net) = Net.new sv clock := by
      unfold Net.new
      congr 1
      funext c
      unfold muteLinks
      dsimp only
      split <;> rfl
    rw [show (Net.new sv clock).sys = Sys.new sv clock from rfl, this]; exact .nil _
  · clear h
    intro tr n e n' h ih hst hc
    obtain ⟨tr', ds, d, h1, h2, h3, h4, h5⟩ := ih fun c hq i t p g o hx => hc c hq i t p g o (hx.more _)
    cases hst with
    | send c b =>
      cases hq : Q c with
      | true =>
        refine ⟨tr', ds, d, ?_, ?_, h3, h4, h5⟩
        · rw [muteLinks_set hq]; exact h1
        · rw [besides_append, h2]; simp [besides, hq]
      | false =>
        refine ⟨tr' ++ [.send c b], ds, d, h1.append (.cons (.send c b) ?_), by rw [besides_append, besides_append, h2], ?_, h4, h5⟩
        · rw [muteLinks_set' hq]; dsimp only; rw [muteLinks_at hq]; exact .nil _
        · intro c' b' hq'
          simp only [List.mem_append, List.mem_singleton, not_or]
          refine ⟨⟨(h3 c' b' hq').1, fun e => ?_⟩, (h3 c' b' hq').2, nofun⟩
          cases e; rw [hq] at hq'; cases hq'
    | @receive c b rest hr =>
      cases hq : Q c with
      | true =>
        refine ⟨tr', ds, d, ?_, ?_, h3, h4, h5⟩
        · rw [muteLinks_set hq]; exact h1
        · rw [besides_append, h2]; simp [besides, hq]
      | false =>
        refine ⟨tr' ++ [.receive c b], ds, d, h1.append (.cons (.receive (rest := rest) ?_) ?_), by rw [besides_append, besides_append, h2], ?_, h4, h5⟩
        · show (muteLinks Q n.links c).down = _
          rw [muteLinks_at hq]; exact hr
        · rw [muteLinks_set' hq]; dsimp only; rw [muteLinks_at hq]; exact .nil _
        · intro c' b' hq'
          simp only [List.mem_append, List.mem_singleton, not_or]
          refine ⟨⟨(h3 c' b' hq').1, nofun⟩, (h3 c' b' hq').2, fun e => ?_⟩
          cases e; rw [hq] at hq'; cases hq'
    | @mock e s L hs hl =>
      obtain ⟨es, ds', d', g1, g2, g3, g4⟩ := mute_step hs (fun c a r he hq => by
        subst he
        exact looks h (.mock hs hl) fun i t p g o hx => hc c hq i t p g o (hx.more _)) h4 h5
      have mem : ∀ c b, Q c = true → NEv.send c b ∉ tr' ++ es.map .mock ∧ NEv.receive c b ∉ tr' ++ es.map .mock := by
        intro c b hq
        simp only [List.mem_append, List.mem_map, not_or]
        exact ⟨⟨(h3 c b hq).1, fun ⟨_, _, e⟩ => by cases e⟩, (h3 c b hq).2, fun ⟨_, _, e⟩ => by cases e⟩
      refine ⟨tr' ++ es.map .mock, ds', d', h1.append ?_, ?_, mem, g3, g4⟩
      · have free : (∀ e ∈ es, ∀ L, Carries e L L) → muteLinks Q L = muteLinks Q n.links → Net.Run ⟨n.sys.mute Q ds d, muteLinks Q n.links⟩ (es.map .mock) ⟨s.mute Q ds' d', muteLinks Q L⟩ := by
          intro k1 k2
          rw [k2]
          exact run_carried g2 _ fun e he => k1 e he _
        cases g1 with
        | same hq =>
          cases g2 with
          | cons k1 k2 =>
            cases k2
            exact .cons (.mock k1 (carries_mute hl hq)) (.nil _)
        | act hq x => exact free (by simp [Carries]) (carries_hushed hl hq)
        | unroll hq => exact free (by simp) (congrArg (muteLinks Q) hl)
        | told hq => exact free (by simp [Carries]) (congrArg (muteLinks Q) hl)
        | hung hq => exact free (by simp [Carries]) (congrArg (muteLinks Q) hl)
      · rw [besides_append, besides_append, h2]
        congr 1
        cases g1 with
        | same => rfl
        | act hq x => simp [besides, hq]
        | unroll hq => simp [besides, hq]
        | told hq => simp [besides, hq]
        | hung hq => simp [besides, hq]

theorem asked_besides {Q : Nat → Bool} {c : Nat} (hq : Q c = false) (tr : List NEv) : asked c (besides Q tr) = asked c tr := by
  induction tr with
  | nil => rfl
  | cons e tr ih =>
    rw [show e :: tr = [e] ++ tr from rfl, besides_append, asked_append, asked_append, ih]
    congr 1
    cases e with
    | send d b =>
      by_cases e : d = c
      · subst e; simp [besides, hq]
      · cases hd : Q d <;> simp [besides, hd, asked, e]
    | receive d b => cases hd : Q d <;> simp [besides, hd, asked]
    | mock e => cases e <;> simp only [besides, List.filter] <;> (try split) <;> rfl

theorem got_besides {Q : Nat → Bool} {c : Nat} (hq : Q c = false) (tr : List NEv) : got c (besides Q tr) = got c tr := by
  induction tr with
  | nil => rfl
  | cons e tr ih =>
    rw [show e :: tr = [e] ++ tr from rfl, besides_append, got_append, got_append, ih]
    congr 1
    cases e with
    | receive d b =>
      by_cases e : d = c
      · subst e; simp [besides, hq]
      · cases hd : Q d <;> simp [besides, hd, got, e]
    | send d b => cases hd : Q d <;> simp [besides, hd, got]
    | mock e => cases e <;> simp only [besides, List.filter] <;> (try split) <;> rfl

theorem asked_none {c : Nat} {tr : List NEv} (h : ∀ b, .send c b ∉ tr) : asked c tr = [] := by
  induction tr with
  | nil => rfl
  | cons e tr ih =>
    have := ih fun b hb => h b (by simp [hb])
    cases e with
    | send d b =>
      show (if d = c then b ++ asked c tr else asked c tr) = []
      rw [if_neg (by rintro rfl; exact h b (by simp)), this]
    | _ => exact this

theorem got_none {c : Nat} {tr : List NEv} (h : ∀ b, .receive c b ∉ tr) : got c tr = [] := by
  induction tr with
  | nil => rfl
  | cons e tr ih =>
    have := ih fun b hb => h b (by simp [hb])
    cases e with
    | receive d b =>
      show (if d = c then b ++ got c tr else got c tr) = []
      rw [if_neg (by rintro rfl; exact h b (by simp)), this]
    | _ => exact this

/-- **C120**: whatever happens in a run with clients that have sent no OffsetCommit request, but read, ask for this and that, or send bytes that are no requests, can happen when these clients say nothing: there is a run in
which they connect, send nothing and receive nothing, and hang up when their connection ends in the given run, and everything else happens as in the given run, in the same order; with the same bytes sent
and received by all other clients, the same records and committed offsets at the end, and the same time. -/
theorem C120 {sv : Server} {clock : Int} {tr : List NEv} {n : Net} (h : Net.Run (Net.new sv clock) tr n) (Q : Nat → Bool)
    (hc : ∀ c, Q c = true → ∀ i t p g o, ¬ CommitSent tr c i t p g o) :
    ∃ tr' n', Net.Run (Net.new sv clock) tr' n' ∧ besides Q tr' = besides Q tr ∧ (∀ c, Q c = true → asked c tr' = [] ∧ got c tr' = []) ∧
      (∀ c, Q c = false → asked c tr' = asked c tr ∧ got c tr' = got c tr) ∧
      (∀ t p, (n'.sys.view 0).log t p = (n.sys.view 0).log t p) ∧ (∀ t p g, (n'.sys.view 0).committed t p g = (n.sys.view 0).committed t p g) ∧ n'.sys.clock = n.sys.clock := by
  obtain ⟨tr', ds, d, h1, h2, h3, h4, h5⟩ := net_mute h Q hc
  have part : ∀ t p, (n.sys.ds.part? t p).map Partition.sight = (ds.part? t p).map Partition.sight := sight_parts h4
  refine ⟨tr', _, h1, h2, fun c hq => ⟨asked_none fun b => (h3 c b hq).1, got_none fun b => (h3 c b hq).2⟩,
    fun c hq => ⟨by rw [← asked_besides hq, h2, asked_besides hq], by rw [← got_besides hq, h2, got_besides hq]⟩, fun t p => ?_, fun t p g => ?_, rfl⟩
  · have := congrArg (fun x : Option Sight => (x.map Sight.records).getD []) (part t p)
    simp only [Option.map_map] at this
    exact this.symm
  · have h6 := part t p
    show (((ds.part? t p).bind fun kp => GoMap.get kp.committed g)).getD 0 = (((n.sys.ds.part? t p).bind fun kp => GoMap.get kp.committed g)).getD 0
    cases h7 : n.sys.ds.part? t p <;> cases h8 : ds.part? t p <;> rw [h7, h8] at h6 <;> first | (simp at h6; done) | skip
    exact (congrFun (congrArg Sight.offset (Option.some.inj h6)) g).symm

end KM.Props
