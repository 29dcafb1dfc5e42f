import Verif.Props.Once
import Verif.Props.Later
/-
Property C129: the end of the log is the number of posts.
-/
namespace KM.Props
open KM KM.Spec

/-- A run with its states: in state `ns k` the event `es k` happens, for all `k` below `N`. -/
structure Listed (sv : Server) (clock : Int) (ns : Nat → Net) (es : Nat → NEv) (N : Nat) : Prop where
  first : ns 0 = Net.new sv clock
  step : ∀ k, k < N → Net.Step (ns k) (es k) (ns (k + 1))

variable {sv : Server} {clock : Int} {ns : Nat → Net} {es : Nat → NEv}

theorem Listed.less {N m : Nat} (h : Listed sv clock ns es N) (hm : m ≤ N) : Listed sv clock ns es m := ⟨h.first, fun k hk => h.step k (by omega)⟩

theorem Listed.run {m : Nat} (h : Listed sv clock ns es m) : Net.Run (Net.new sv clock) (upTo es m) (ns m) := by
  induction m with
  | zero => rw [h.first]; exact .nil _
  | succ m ih => rw [upTo_succ]; exact (ih (h.less (Nat.le_succ _))).append (.cons (h.step m (Nat.lt_succ_self _)) (.nil _))

/-- Event number `k` is a call of SimplePost or ExtendedPost for partition `p` of topic `t`. -/
structure PostAt (ns : Nat → Net) (es : Nat → NEv) (t : Bytes) (p : I32) (k i : Nat) (call : PostCall) : Prop where
  event : es k = .mock (.life (.api i call.call))
  idle : (ns k).sys.api i = .idle
  targets : call.targets t p

/-- The call of caller `i` that is event number `k` has returned when `m` events have happened: the caller is about to return, or is out of the call, at some time since. -/
def ReturnedBy (ns : Nat → Net) (k i m : Nat) : Prop := ∃ j, k < j ∧ j ≤ m ∧ ((ns j).sys.api i = .call (.ret ()) ∨ (ns j).sys.api i = .idle)

/-- The record comes from event number `k`, which is a call for the partition with this key, value, headers and timestamp. -/
def PostedAt (ns : Nat → Net) (es : Nat → NEv) (N : Nat) (t : Bytes) (p : I32) (k : Nat) (r : Record) : Prop :=
  k < N ∧ ∃ i call, PostAt ns es t p k i call ∧ call.Matches ((ns k).sys.view 0).clock ((ns N).sys.view 0).clock r

/-- A caller that is in a posting function has called it, and has been in it since. -/
theorem listed_called {m : Nat} (h : Listed sv clock ns es m) {i : Nat} {p : Prog Unit} (hp : (ns m).sys.api i = .call p) :
    ∃ k c q, k < m ∧ es k = .mock (.life (.api i c)) ∧ (ns k).sys.api i = .idle ∧ c.entry = .call q ∧ (ns (k + 1)).sys.api i = .call q ∧
      ∀ j, k < j → j ≤ m → ∃ p' l, (ns j).sys.api i = .call p' ∧ Exec ((ns j).sys.view 0) p' l ((ns m).sys.view 0) p := by
  induction m generalizing p with
  | zero => rw [h.first] at hp; simp [Net.new, Sys.new] at hp
  | succ m ih =>
    have hs := h.step m (Nat.lt_succ_self _)
    have stay : ∀ q, (ns m).sys.api i = .call q → (q.Only NoCancel → ∃ l, Exec ((ns m).sys.view 0) q l ((ns (m + 1)).sys.view 0) p) →
        ∃ k c q, k < m + 1 ∧ es k = .mock (.life (.api i c)) ∧ (ns k).sys.api i = .idle ∧ c.entry = .call q ∧ (ns (k + 1)).sys.api i = .call q ∧
          ∀ j, k < j → j ≤ m + 1 → ∃ p' l, (ns j).sys.api i = .call p' ∧ Exec ((ns j).sys.view 0) p' l ((ns (m + 1)).sys.view 0) p := by
      intro q hq hx
      obtain ⟨k, c, q0, g1, g2, g3, g4, g5, g6⟩ := ih (h.less (Nat.le_succ _)) hq
      have ho : q.Only NoCancel := by
        obtain ⟨p', l, x1, x2⟩ := g6 (k + 1) (by omega) (by omega)
        rw [g5] at x1
        cases x1
        exact (x2.only (Call.noCancel g4)).1
      obtain ⟨l', y⟩ := hx ho
      refine ⟨k, c, q0, by omega, g2, g3, g4, g5, ?_⟩
      intro j hj hj'
      by_cases e : j = m + 1
      · subst e
        exact ⟨p, [], hp, .refl _ _⟩
      · obtain ⟨p', l, x1, x2⟩ := g6 j hj (by omega)
        exact ⟨p', _, x1, x2.trans y⟩
    generalize hn : ns (m + 1) = n' at *
    generalize hN : ns m = n at *
    generalize he : es m = e at *
    cases hs with
    | send => exact stay p hp fun _ => ⟨[], .refl _ _⟩
    | receive => exact stay p hp fun _ => ⟨[], .refl _ _⟩
    | @mock e s L hs hl =>
      rcases step_call_back hs hp with ⟨q, hq⟩ | ⟨c, rfl, h1, h2⟩
      · refine stay q hq fun ho => ?_
        rcases step_call hs hq ho with ⟨p', l, h3, h4, h5, _⟩ | ⟨_, h3, _⟩
        · rw [hp] at h3; cases h3
          exact ⟨l, h4⟩
        · rw [hp] at h3; cases h3
      · refine ⟨m, c, p, Nat.lt_succ_self _, he, by rw [hN]; exact h1, h2, by rw [hn]; exact hp, ?_⟩
        intro j hj hj'
        cases Nat.le_antisymm hj' hj
        exact ⟨p, [], by rw [hn]; exact hp, by rw [hn]; exact .refl _ _⟩

/-- The call it is in is the last that it has made. -/
theorem listed_last {m : Nat} (h : Listed sv clock ns es m) {i : Nat} {p : Prog Unit} (hp : (ns m).sys.api i = .call p) {k : Nat} (hk : k < m) {c : Call} (he : es k = .mock (.life (.api i c)))
    (hi : (ns k).sys.api i = .idle) (hin : ∀ j, k < j → j ≤ m → ∃ p', (ns j).sys.api i = .call p') {q : Prog Unit} (hc : c.entry = .call q) :
    ∀ j, k < j → j ≤ m → ∃ p' l, (ns j).sys.api i = .call p' ∧ Exec ((ns j).sys.view 0) p' l ((ns m).sys.view 0) p := by
  obtain ⟨k', c', q', g1, g2, g3, g4, g5, g6⟩ := listed_called h hp
  have : k' = k := by
    rcases Nat.lt_trichotomy k' k with h1 | h1 | h1
    · obtain ⟨_, _, h2, _⟩ := g6 k h1 (by omega)
      rw [hi] at h2; cases h2
    · exact h1
    · obtain ⟨_, h2⟩ := hin k' h1 (by omega)
      rw [g3] at h2; cases h2
  subst this
  exact g6

theorem post_last {call : PostCall} {l : List REv} {a : Act} {f : a.Resp → Prog Unit} (h : Own call.prog l (.act a f)) {r : a.Resp} (hf : f r = .ret ()) : a.effect ≠ none := by
  unfold PostCall.prog at h
  split at h
  all_goals
    cases h with
    | refl => cases hf
    | act _ _ _ h =>
      cases h with
      | refl => cases hf
      | act _ _ _ h =>
        cases h with
        | refl => cases hf
        | act _ _ _ h =>
          cases h with
          | refl => nofun
          | act _ _ _ h => cases h

/-- Every post that anyone has called before event `m` is one of `ks`, or the caller has been in the call since and is not about to return. -/
def AllIn (ns : Nat → Net) (es : Nat → NEv) (m : Nat) (t : Bytes) (p : I32) (ks : List Nat) : Prop :=
  ∀ k i call, k < m → PostAt ns es t p k i call → k ∈ ks ∨ ∀ j, k < j → j ≤ m → ∃ p, (ns j).sys.api i = .call p ∧ p ≠ .ret ()

theorem exec_ret_stays {w w' : World} {l : List Ev} {p : Prog Unit} (h : Exec w (.ret ()) l w' p) : p = .ret () := by
  have key : ∀ {w w' : World} {l : List Ev} {q p : Prog Unit}, Exec w q l w' p → q = .ret () → p = .ret () := by
    intro w w' l q p h hq
    induction h with
    | refl => exact hq
    | env _ _ _ _ ih => exact ih hq
    | mine => cases hq
    | unroll => cases hq
  exact key h rfl

/-- The posting functions have no loops. -/
theorem post_shape {call : PostCall} {l : List REv} {x : Prog Unit} (h : Own call.prog l x) : x = .ret () ∨ ∃ a f, x = .act a f := by
  unfold PostCall.prog at h
  split at h
  all_goals
    cases h with
    | refl => exact .inr ⟨_, _, rfl⟩
    | act _ _ _ h =>
      cases h with
      | refl => exact .inr ⟨_, _, rfl⟩
      | act _ _ _ h =>
        cases h with
        | refl => exact .inr ⟨_, _, rfl⟩
        | act _ _ _ h =>
          cases h with
          | refl => exact .inr ⟨_, _, rfl⟩
          | act _ _ _ h => cases h; exact .inl rfl

theorem own_nil_ret {call : PostCall} {l : List REv} {x : Prog Unit} (h : Own call.prog l x) (hx : Own x [] (.ret ())) : x = .ret () := by
  rcases post_shape h with h | ⟨a, f, rfl⟩
  · exact h
  · cases hx

/-- The call that posts. -/
theorem posts_call {c : Call} {q : Prog Unit} {l : List REv} {t : Bytes} {p : I32} {rec : Record} {f : (Act.post t p rec).Resp → Prog Unit} (hc : c.entry = .call q)
    (h : Own q l (.act (.post t p rec) f)) : ∃ call : PostCall, c = call.call ∧ q = call.prog ∧ call.targets t p ∧ ∀ r, f r = .ret () := by
  have hm : ∀ call : PostCall, c = call.call → ∃ call : PostCall, c = call.call ∧ q = call.prog ∧ call.targets t p ∧ ∀ r, f r = .ret () := by
    intro call e
    rw [e, call.entry] at hc
    cases hc
    obtain ⟨_, ⟨_, h2⟩, h3⟩ := post_first h nofun
    cases h2
    exact ⟨call, e, rfl, ⟨rfl, rfl⟩, h3⟩
  cases c with
  | simplePost t m k x => exact hm ⟨t, m, k, x, none⟩ rfl
  | extendedPost t m k x hs ts => exact hm ⟨t, m, k, x, some (hs, ts)⟩ rfl
  | createPartitionTopics m ts => cases hc; cases create_first h
  | setConsumerGroupOffset t' m g' o' =>
    cases hc
    obtain ⟨_, h2⟩ := reset_first h nofun
    cases h2
  | _ => cases hc

theorem prog_not_ret (call : PostCall) : call.prog ≠ .ret () := by
  intro h
  unfold PostCall.prog at h
  split at h <;> cases h

/-- A caller that has not posted goes on, unless it posts. -/
theorem unposted_step {M : Nat} (h : Listed sv clock ns es (M + 1)) {t : Bytes} {p : I32} {k i : Nat} {call : PostCall} (hk : k < M) (hpost : PostAt ns es t p k i call)
    (hin : ∀ j, k < j → j ≤ M → ∃ p, (ns j).sys.api i = .call p ∧ p ≠ .ret ()) :
    (∃ p', (ns (M + 1)).sys.api i = .call p' ∧ p' ≠ .ret ()) ∨ ∃ rec r, es M = .mock (.call i (.post t p rec) r) := by
  obtain ⟨x, h1, h2⟩ := hin M hk (Nat.le_refl _)
  have hex := listed_last (h.less (Nat.le_succ _)) h1 hk hpost.event hpost.idle (fun j a b => by obtain ⟨p', h3, _⟩ := hin j a b; exact ⟨p', h3⟩) call.entry
  obtain ⟨p', l, h3, h4⟩ := hex (k + 1) (by omega) (by omega)
  have h5 : (ns (k + 1)).sys.api i = .call call.prog := by
    have hs := h.step k (by omega)
    rw [hpost.event] at hs
    generalize ns (k + 1) = n' at *
    have hidle := hpost.idle
    generalize ns k = n at *
    cases hs with
    | mock hs hl =>
    cases hs with
    | life hn =>
    rcases apiStep_self hn with ⟨_, g⟩ | ⟨g, _⟩
    · rw [g, call.entry]
    · exact absurd hidle g
  rw [h5] at h3
  cases h3
  have ho := h4.own
  have hs := h.step M (Nat.lt_succ_self _)
  generalize ns (M + 1) = n' at *
  generalize ns M = n at *
  generalize es M = e at *
  cases hs with
  | send => exact .inl ⟨x, h1, h2⟩
  | receive => exact .inl ⟨x, h1, h2⟩
  | @mock e s L hs hl =>
    rcases step_call hs h1 (ho.only (Call.noCancel call.entry)).1 with ⟨p', l', g1, g2, g3, _⟩ | ⟨g1, _, _⟩
    · by_cases hret : p' = .ret ()
      · right
        subst hret
        have ho2 := g2.own
        rw [g3] at ho2
        cases e with
        | call i' a r =>
          by_cases e : i' = i
          · subst e
            have : callsOf i' [.call i' a r] = [⟨a, r⟩] := by simp [callsOf]
            rw [this] at ho2
            rcases post_shape ho with g4 | ⟨b, f, rfl⟩
            · exact absurd g4 h2
            · cases ho2 with
              | act _ f _ h6 =>
                obtain ⟨_, ⟨rec, rfl⟩, _⟩ := post_first ho (post_last ho (own_nil_ret (ho.trans (.act _ _ r (.refl _))) h6))
                obtain ⟨rfl, rfl⟩ := hpost.targets
                exact ⟨rec, r, rfl⟩
          · have : callsOf i [.call i' a r] = [] := by simp [callsOf, e]
            rw [this] at ho2
            exact absurd (own_nil_ret ho ho2) h2
        | _ => exact absurd (own_nil_ret ho ho2) h2
      · exact .inl ⟨p', g1, hret⟩
    · exact absurd g1 h2

/-- The call of the record, and that it has posted. -/
def PostedAt' (ns : Nat → Net) (es : Nat → NEv) (N : Nat) (t : Bytes) (p : I32) (k : Nat) (r : Record) : Prop :=
  k < N ∧ ∃ i call, PostAt ns es t p k i call ∧ call.Matches ((ns k).sys.view 0).clock ((ns N).sys.view 0).clock r ∧ ∃ j, k < j ∧ j ≤ N ∧ (ns j).sys.api i = .call (.ret ())

/-- The records of a partition and the calls that have posted them. -/
theorem posted_listed {N : Nat} (h : Listed sv clock ns es N) (t : Bytes) (p : I32) :
    ∃ ks : List Nat, ks.Nodup ∧ List.Forall₂ (PostedAt' ns es N t p) ks (((ns N).sys.view 0).log t p) ∧
      ∀ m, m ≤ N → AllIn ns es m t p (ks.take (((ns m).sys.view 0).log t p).length) ∧ ∀ k ∈ ks.take (((ns m).sys.view 0).log t p).length, k < m := by
  induction N with
  | zero =>
    refine ⟨[], List.nodup_nil, ?_, fun m hm => ⟨fun k i call hk => by omega, fun k hk => by simp at hk⟩⟩
    rw [h.first]
    exact .nil
  | succ M ih =>
    obtain ⟨ks, h1, h2, h3⟩ := ih (h.less (Nat.le_succ _))
    have hs := h.step M (Nat.lt_succ_self _)
    have hr1 : Net.Run (ns M) [es M] (ns (M + 1)) := .cons hs (.nil _)
    have hlog := (C46_kept hr1.sys).1 t p
    have hclock : ((ns M).sys.view 0).clock ≤ ((ns (M + 1)).sys.view 0).clock := by
      obtain ⟨es, g1, _⟩ := hr1.sys.steps 0
      exact g1.clock
    have keep : List.Forall₂ (PostedAt' ns es (M + 1) t p) ks (((ns M).sys.view 0).log t p) := by
      refine h2.imp ?_
      rintro k r ⟨g1, i, call, g2, g3, j, g4, g5, g6⟩
      exact ⟨by omega, i, call, g2, g3.mono (Int.le_refl _) hclock, j, g4, by omega, g6⟩
    have hlen := h2.length_eq
    have early : ∀ k ∈ ks, k < M := fun k hk => (h3 M (Nat.le_refl _)).2 k (by rw [← hlen, List.take_length]; exact hk)
    -- a call that has just been made, or an earlier one
    have last : ∀ k i call, k < M + 1 → PostAt ns es t p k i call → k ∈ ks ∨ (∀ j, k < j → j ≤ M + 1 → ∃ p, (ns j).sys.api i = .call p ∧ p ≠ .ret ()) ∨
        k < M ∧ (∀ j, k < j → j ≤ M → ∃ p, (ns j).sys.api i = .call p ∧ p ≠ .ret ()) ∧ ∃ rec r, es M = .mock (.call i (.post t p rec) r) := by
      intro k i call hk hpost
      by_cases e : k = M
      · subst e
        right; left
        intro j hj hj'
        cases Nat.le_antisymm hj' hj
        refine ⟨call.prog, ?_, prog_not_ret call⟩
        rw [hpost.event] at hs
        have hidle := hpost.idle
        generalize ns (k + 1) = n' at *
        generalize ns k = n at *
        cases hs with
        | mock hs hl =>
        cases hs with
        | life hn =>
        rcases apiStep_self hn with ⟨_, g⟩ | ⟨g, _⟩
        · rw [g, call.entry]
        · exact absurd hidle g
      · rcases (h3 M (Nat.le_refl _)).1 k i call (by omega) hpost with g | g
        · exact .inl (List.mem_of_mem_take g)
        · rcases unposted_step h (by omega) hpost g with g' | g'
          · right; left
            intro j hj hj'
            by_cases e' : j = M + 1
            · subst e'; exact g'
            · exact g j hj (by omega)
          · exact .inr (.inr ⟨by omega, g, g'⟩)
    by_cases hpost : Spec.posts (effectsOf (mocks [es M])) t p = []
    · rw [hpost, List.append_nil] at hlog
      refine ⟨ks, h1, by rw [hlog]; exact keep, ?_⟩
      intro m hm
      by_cases e : m = M + 1
      · subst e
        refine ⟨?_, fun k hk => Nat.lt_succ_of_lt (early k (List.mem_of_mem_take hk))⟩
        intro k i call hk hpa
        rw [hlog, ← hlen, List.take_length]
        rcases last k i call hk hpa with g | g | ⟨_, _, rec, r, g⟩
        · exact .inl g
        · exact .inr g
        · rw [g] at hpost
          exact absurd hpost (by simp [mocks, effectsOf, Act.effect, Spec.posts])
      · exact h3 m (by omega)
    · obtain ⟨i, rec, r, he⟩ : ∃ i rec r, es M = .mock (.call i (.post t p rec) r) := by
        have hrun := (h.less (Nat.le_succ M)).run
        generalize ns (M + 1) = n' at *
        generalize ns M = n at *
        generalize es M = e at *
        cases e with
        | send => exact absurd rfl hpost
        | receive => exact absurd rfl hpost
        | mock e =>
          cases e with
          | conn c a r =>
            exfalso
            by_cases ha : a.effect = none
            · exact hpost (by simp [mocks, effectsOf, ha, Spec.posts])
            · obtain ⟨_, _, _, _, _, rfl, _⟩ := conn_effect hrun hs ha
              exact hpost rfl
          | call i a r =>
            cases a with
            | post t' p' rec =>
              by_cases e : t' = t ∧ p' = p
              · obtain ⟨rfl, rfl⟩ := e
                exact ⟨i, rec, r, rfl⟩
              · exact absurd (by simp [mocks, effectsOf, Act.effect, Spec.posts, e]) hpost
            | _ => exact absurd rfl hpost
          | _ => exact absurd rfl hpost
      have hone : Spec.posts (effectsOf (mocks [es M])) t p = [rec] := by rw [he]; simp [mocks, effectsOf, Act.effect, Spec.posts]
      obtain ⟨f, hp, hp', hexec⟩ : ∃ f, (ns M).sys.api i = .call (.act (.post t p rec) f) ∧ (ns (M + 1)).sys.api i = .call (f r) ∧
          ∀ w0 q l, Exec w0 q l ((ns M).sys.view 0) (.act (.post t p rec) f) → ∃ l' w, Exec w0 q l' w (f r) ∧ (t, p, rec) ∈ ownPosts l' ∧ w.clock = ((ns (M + 1)).sys.view 0).clock := by
        rw [he] at hs
        generalize ns (M + 1) = n' at *
        generalize ns M = n at *
        cases hs with
        | @mock _ s L hs hl =>
        cases hs with
        | @call _ _ f _ w hp ha =>
          refine ⟨f, hp, by simp [Sys.setApi], ?_⟩
          intro w0 q l hl'
          refine ⟨_, w, hl'.trans (.mine _ f r ha (.refl _ _)), ?_, rfl⟩
          rw [ownPosts_append]
          exact List.mem_append_right _ (by simp [ownPosts])
      obtain ⟨k, c, q, g1, g2, g3, g4, g5, g6⟩ := listed_called (h.less (Nat.le_succ _)) hp
      obtain ⟨p', l, x1, x2⟩ := g6 (k + 1) (by omega) (by omega)
      rw [g5] at x1
      cases x1
      obtain ⟨call, rfl, rfl, htg, hf⟩ := posts_call g4 x2.own
      obtain ⟨l', w, y1, y2, y3⟩ := hexec _ _ _ x2
      rw [hf] at y1 hp'
      have hpa : PostAt ns es t p k i call := ⟨g2, g3, htg⟩
      have hmatch : call.Matches ((ns k).sys.view 0).clock ((ns (M + 1)).sys.view 0).clock rec := by
        obtain ⟨rec', z1, z2⟩ := postCall_exec y1
        rw [z1] at y2
        have := List.mem_singleton.1 y2
        injection this with _ this
        injection this with _ this
        rw [this]
        rw [y3] at z2
        refine z2.mono ?_ (Int.le_refl _)
        obtain ⟨es', z3, _⟩ := (Net.Run.cons (h.step k (by omega)) (.nil _)).sys.steps 0
        exact z3.clock
      have hnew : k ∉ ks := by
        intro hk
        obtain ⟨j, hj⟩ := List.getElem?_of_mem hk
        have hlt : j < (((ns M).sys.view 0).log t p).length := by rw [← hlen]; exact (List.getElem?_eq_some_iff.1 hj).1
        obtain ⟨_, i', call', z1, _, j', z2, z3, z4⟩ := forall2_at h2 hj (List.getElem?_eq_getElem hlt)
        have z5 := z1.event
        rw [g2] at z5
        injection z5 with z5; injection z5 with z5; injection z5 with z5 _
        subst z5
        obtain ⟨p', l, z6, z7⟩ := g6 j' z2 z3
        rw [z4] at z6
        cases z6
        cases exec_ret_stays z7
      refine ⟨ks ++ [k], ?_, ?_, ?_⟩
      · refine List.nodup_append.2 ⟨h1, by simp, ?_⟩
        intro a ha b hb hab
        rw [List.mem_singleton] at hb
        subst hb; subst hab
        exact hnew ha
      · rw [hlog, hone]
        exact List.rel_append keep (.cons ⟨by omega, i, call, hpa, hmatch, M + 1, by omega, Nat.le_refl _, hp'⟩ .nil)
      · intro m hm
        by_cases e : m = M + 1
        · subst e
          refine ⟨?_, fun a ha => ?_⟩
          rotate_left
          · rcases List.mem_append.1 (List.mem_of_mem_take ha) with ha | ha
            · exact Nat.lt_succ_of_lt (early a ha)
            · cases List.mem_singleton.1 ha
              omega
          intro k' i' call' hk hpa'
          rw [hlog, hone, List.length_append, ← hlen, List.take_of_length_le (by simp)]
          rcases last k' i' call' hk hpa' with g | g | ⟨w1, w2, rec', r', g⟩
          · exact .inl (List.mem_append_left _ g)
          · exact .inr g
          · rw [he] at g
            injection g with g; injection g with g
            subst g
            left
            have : k' = k := by
              rcases Nat.lt_trichotomy k' k with v | v | v
              · obtain ⟨_, v1, _⟩ := w2 k v (by omega)
                rw [g3] at v1; cases v1
              · exact v
              · obtain ⟨_, _, v1, _⟩ := g6 k' v (by omega)
                rw [hpa'.idle] at v1; cases v1
            subst this
            simp
        · have hle : (((ns m).sys.view 0).log t p).length ≤ ks.length := by
            rw [hlen]
            obtain ⟨tail, ht⟩ := upTo_le (es := es) (show m ≤ M by omega)
            have a1 := (C46_kept (h.less (show m ≤ M + 1 by omega)).run.sys).1 t p
            have a2 := (C46_kept (h.less (Nat.le_succ M)).run.sys).1 t p
            rw [a1, a2, ht, mocks_append, effectsOf_append, posts_append, ← List.append_assoc]
            simp
          rw [List.take_append_of_le_length hle]
          exact h3 m (by omega)

/-- **C129**, records: the records of a partition are those of distinct calls of SimplePost and ExtendedPost for it, one of each, with its key, value, headers and timestamp; and at every time
every call that has returned is among those of the records that there are, which are all of calls that have been made. -/
theorem C129_records {N : Nat} (h : Listed sv clock ns es N) (t : Bytes) (p : I32) :
    ∃ ks : List Nat, ks.Nodup ∧ List.Forall₂ (PostedAt ns es N t p) ks (((ns N).sys.view 0).log t p) ∧
      ∀ m, m ≤ N → (∀ k i call, PostAt ns es t p k i call → ReturnedBy ns k i m → k ∈ ks.take (((ns m).sys.view 0).log t p).length) ∧
        ∀ k ∈ ks.take (((ns m).sys.view 0).log t p).length, k < m := by
  obtain ⟨ks, h1, h2, h3⟩ := posted_listed h t p
  refine ⟨ks, h1, h2.imp ?_, fun m hm => ⟨?_, (h3 m hm).2⟩⟩
  · rintro k r ⟨g1, i, call, g2, g3, _⟩
    exact ⟨g1, i, call, g2, g3⟩
  · rintro k i call hpa ⟨j, j1, j2, j3⟩
    rcases (h3 m hm).1 k i call (by omega) hpa with g | g
    · exact g
    · obtain ⟨x, g1, g2⟩ := g j j1 j2
      rcases j3 with j3 | j3
      · rw [j3] at g1; cases g1; exact absurd rfl g2
      · rw [j3] at g1; cases g1

/-- **C129**: a ListOffsets request for the end of the log, that a client has completed after `m` events and to which it has received the response after `N`, is answered with the number of a set of
calls of SimplePost and ExtendedPost for the partition: all of them were made before the response arrived, and those that had returned before the request was complete are all among them. -/
theorem C129_count {N m : Nat} (h : Listed sv clock ns es N) (hm : m ≤ N) {d j : Nat} (hsm : SmallReplies sv (actsOf d (mocks (upTo es N)))) (hlate : (frames (asked d (upTo es m))).length ≤ j)
    {msg r : Bytes} {q : ListOffsetsRequest} {corr : I32} {client : Option Bytes} (hmsg : (frames (asked d (upTo es N)))[j]? = some msg) (ha : Accepted (.listOffsets q) corr client msg)
    (hb : FitsBuffer (.listOffsets q) corr client) (hre : (frames (got d (upTo es N)))[j]? = some r) :
    ∃ b x, Framed b [r] ∧ Client.response Client.listOffsets b = some ((corr, x), []) ∧
      ∀ (a c : Nat) qt qp rt rp, q.topics[a]? = some qt → qt.partitions[c]? = some qp → x.topics[a]? = some rt → rt.partitions[c]? = some rp → qp.timestamp.toInt = -1 → rp.errorCode = 0 →
        ∃ ks : List Nat, ks.Nodup ∧ rp.offset = BitVec.ofNat 64 ks.length ∧ (∀ k ∈ ks, k < N ∧ ∃ i call, PostAt ns es qt.name qp.partitionIndex k i call) ∧
          ∀ k i call, PostAt ns es qt.name qp.partitionIndex k i call → ReturnedBy ns k i m → k ∈ ks := by
  obtain ⟨tail, ht⟩ := upTo_le (es := es) hm
  have hrun := h.run
  rw [ht] at hrun hsm hre hmsg
  obtain ⟨nm, r1, r2⟩ := hrun.split
  obtain ⟨u1, m2, u2, payload, u3, n1, n2, req, corr', client', f1, f2, f3, f4, f5, f6, f7, f8, f9, _⟩ := C106_after r1 r2 d hsm hlate hre
  cases same_message (a := upTo es m ++ u1) (b := [.mock (.conn d (.reqBegin m2) ())] ++ ((u2 ++ [.mock (.conn d (.write payload) true)]) ++ u3)) (by
    rw [show upTo es m ++ u1 ++ ([.mock (.conn d (.reqBegin m2) ())] ++ ((u2 ++ [.mock (.conn d (.write payload) true)]) ++ u3)) = upTo es m ++ tail by rw [f1]; simp]
    exact hmsg) f5
  obtain ⟨rfl, rfl, _⟩ := C103_unambiguous (e := []) (e' := []) ha hb f6 f7 rfl
  obtain ⟨x, x1, x2⟩ := C59_list_offsets f8
  refine ⟨_, x, f9, x1, ?_⟩
  intro a c qt qp rt rp e1 e2 e3 e4 hT hz
  obtain ⟨_, y1⟩ := forall₂_both x2 e1 e3
  obtain ⟨_, y2⟩ := forall₂_both y1 e2 e4
  rcases y2 with ⟨y2, _⟩ | ⟨_, _, n, z1, z2, z3, _, _⟩
  · rw [hz] at y2; cases y2
  obtain ⟨ks, k1, k2, k3⟩ := C129_records h qt.name qp.partitionIndex
  have b1 := (C46_kept (h.less hm).run.sys).1 qt.name qp.partitionIndex
  have b2 := (C46_kept (r1.append f2).sys).1 qt.name qp.partitionIndex
  have b3 := (C46_kept f4.sys).1 qt.name qp.partitionIndex
  rw [mocks_append, effectsOf_append, posts_append] at b2
  have hks := k2.length_eq
  have c1 : (((ns m).sys.view 0).log qt.name qp.partitionIndex).length ≤ n := by
    refine Nat.le_trans ?_ z1
    rw [b1, b2]
    simp
  have c2 : n ≤ ks.length := by
    refine Nat.le_trans z2 ?_
    rw [hks, b3]
    simp
  refine ⟨ks.take n, ?_, ?_, ?_, ?_⟩
  · exact (List.take_sublist _ _).nodup k1
  · rw [z3 hT, List.length_take, Nat.min_eq_left c2]
  · intro k hk
    obtain ⟨i, hi⟩ := List.getElem?_of_mem (List.mem_of_mem_take hk)
    have hlt : i < (((ns N).sys.view 0).log qt.name qp.partitionIndex).length := by rw [← hks]; exact (List.getElem?_eq_some_iff.1 hi).1
    obtain ⟨g1, i', call, g2, _⟩ := forall2_at k2 hi (List.getElem?_eq_getElem hlt)
    exact ⟨g1, i', call, g2⟩
  · intro k i call hpa hret
    have := (k3 m hm).1 k i call hpa hret
    have : k ∈ (ks.take n).take (((ns m).sys.view 0).log qt.name qp.partitionIndex).length := by rwa [List.take_take, Nat.min_eq_left c1]
    exact List.mem_of_mem_take this

/-- **C129**, when the posts are over: if the posts to the partition that are ever called are `calls`, and all of them had returned before the request was complete, the end of the log is exactly
their number. -/
theorem C129_exact {N m : Nat} (h : Listed sv clock ns es N) (hm : m ≤ N) {d j : Nat} (hsm : SmallReplies sv (actsOf d (mocks (upTo es N)))) (hlate : (frames (asked d (upTo es m))).length ≤ j)
    {msg r : Bytes} {q : ListOffsetsRequest} {corr : I32} {client : Option Bytes} (hmsg : (frames (asked d (upTo es N)))[j]? = some msg) (ha : Accepted (.listOffsets q) corr client msg)
    (hb : FitsBuffer (.listOffsets q) corr client) (hre : (frames (got d (upTo es N)))[j]? = some r) {t : Bytes} {p : I32} {calls : List Nat} (hn : calls.Nodup)
    (hall : ∀ k i call, k < N → PostAt ns es t p k i call → k ∈ calls) (hdone : ∀ k ∈ calls, ∃ i call, PostAt ns es t p k i call ∧ ReturnedBy ns k i m) :
    ∃ b x, Framed b [r] ∧ Client.response Client.listOffsets b = some ((corr, x), []) ∧
      ∀ (a c : Nat) qt qp rt rp, q.topics[a]? = some qt → qt.partitions[c]? = some qp → x.topics[a]? = some rt → rt.partitions[c]? = some rp → qt.name = t → qp.partitionIndex = p →
        qp.timestamp.toInt = -1 → rp.errorCode = 0 → rp.offset = BitVec.ofNat 64 calls.length := by
  obtain ⟨b, x, h1, h2, h3⟩ := C129_count h hm hsm hlate hmsg ha hb hre
  refine ⟨b, x, h1, h2, ?_⟩
  rintro a c qt qp rt rp e1 e2 e3 e4 rfl rfl hT hz
  obtain ⟨ks, g1, g2, g3, g4⟩ := h3 a c qt qp rt rp e1 e2 e3 e4 hT hz
  have : ks.length = calls.length := by
    refine Nat.le_antisymm (g1.subperm ?_).length_le (hn.subperm ?_).length_le
    · intro k hk
      obtain ⟨a1, i, call, a2⟩ := g3 k hk
      exact hall k i call a1 a2
    · intro k hk
      obtain ⟨i, call, a1, a2⟩ := hdone k hk
      exact g4 k i call a1 a2
  rw [g2, this]

end KM.Props
