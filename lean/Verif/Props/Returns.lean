import Verif.Props.Live
import Verif.Props.Forever
/-
Property C137: the functions with which a test works on the data return, after a number of actions that depends on their arguments only.
-/
namespace KM.Props
open KM

/-- What a call of one of the functions that work on the data takes at most: one action for each access to the data or to the clock, and the return. /repo/kafka-mock.go:96-106, 181-200 -/
def mostOf : Call → Option Nat
  | .simplePost .. => some 5
  | .extendedPost .. => some 5
  | .createPartitionTopics _ topics => some (2 * topics.length + 1)
  | .setConsumerGroupOffset .. => some 4
  | _ => none

/-- The program comes to its end, without a panic, within `b` actions, of which the return is one. -/
def Within : {α : Type} → Nat → Prog α → Prop
  | _, b, .ret _ => 1 ≤ b
  | _, _, .panic => False
  | _, b, .act _ k => 1 ≤ b ∧ ∀ r, Within (b - 1) (k r)
  | _, _, .loop _ _ _ => False

theorem createPartitionTopics_within (p : Int) : ∀ ts : List Bytes, Within (2 * ts.length + 1) (createPartitionTopics p ts)
  | [] => Nat.le_refl _
  | _ :: ts => ⟨by omega, fun _ => ⟨by simp only [List.length_cons]; omega, fun _ => createPartitionTopics_within p ts⟩⟩

theorem entry_within {c : Call} {b : Nat} (h : mostOf c = some b) : ∃ p, c.entry = .call p ∧ Within b p := by
  cases c with
  | simplePost => cases h; exact ⟨_, rfl, by decide, fun _ => ⟨by decide, fun _ => ⟨by decide, fun _ => ⟨by decide, fun _ => Nat.le_refl _⟩⟩⟩⟩
  | extendedPost => cases h; exact ⟨_, rfl, by decide, fun _ => ⟨by decide, fun _ => ⟨by decide, fun _ => ⟨by decide, fun _ => Nat.le_refl _⟩⟩⟩⟩
  | createPartitionTopics p ts => cases h; exact ⟨_, rfl, createPartitionTopics_within p ts⟩
  | setConsumerGroupOffset =>
    cases h
    refine ⟨_, rfl, by decide, fun r => ?_⟩
    cases r
    · exact (by decide : 1 ≤ 3)
    · refine ⟨by decide, fun r => ?_⟩
      cases r
      · exact (by decide : 1 ≤ 2)
      · exact ⟨by decide, fun _ => Nat.le_refl _⟩
  | _ => cases h

/-- An event of caller `i`. -/
def byCaller (i : Nat) (e : SEv) : Bool := match e.of with
  | some (.api j) => j == i
  | _ => false

theorem byCaller_iff {i : Nat} {e : SEv} : byCaller i e = true ↔ e.of = some (.api i) := by
  unfold byCaller
  split
  · next j h => rw [h]; simp
  · next h => exact ⟨nofun, fun h' => absurd h' (h i)⟩

/-- A caller in such a function, when somebody else acts and when it acts. -/
theorem within_step {s s' : Sys} {e : SEv} {i b : Nat} {p : Prog Unit} (h : Sys.Step s e s') (hp : s.api i = .call p) (hw : Within b p) :
    (byCaller i e = false ∧ s'.api i = .call p) ∨ (byCaller i e = true ∧ 1 ≤ b ∧ (s'.api i = .idle ∨ ∃ p', s'.api i = .call p' ∧ Within (b - 1) p')) := by
  by_cases he : e.of = some (.api i)
  · refine .inr ⟨byCaller_iff.2 he, ?_⟩
    rcases step_by_api h he with ⟨c, hn⟩ | ⟨a, f, r, w, hp', _, rfl⟩
    · unfold Sys.apiStep at hn
      rw [hp] at hn
      cases p with
      | ret =>
        cases hn
        exact ⟨hw, .inl (if_pos rfl)⟩
      | _ => cases hn
    · rw [hp] at hp'
      cases hp'
      exact ⟨hw.1, .inr ⟨f r, if_pos rfl, hw.2 r⟩⟩
  · refine .inl ⟨Bool.eq_false_iff.2 fun h' => he (byCaller_iff.1 h'), ?_⟩
    have := step_api_other h he
    rw [hp] at this
    exact this.awake rfl rfl

/-- **C137**, how long it takes: after a call of SimplePost, ExtendedPost, CreatePartitionTopics or SetConsumerGroupOffset, whatever the other goroutines do, the caller has made fewer than `b` actions
and is on its way, not about to panic; or it has returned, after at most `b` actions. -/
theorem C137_steps {s0 s1 s : Sys} {i b : Nat} {c : Call} {tr : List SEv} (hi : s0.api i = .idle) (hc : Sys.Step s0 (.life (.api i c)) s1) (h : Sys.Run s1 tr s) (hb : mostOf c = some b) :
    (tr.countP (byCaller i) < b ∧ ∃ p, s.api i = .call p ∧ p ≠ .panic) ∨
      ∃ t1 t2 s2, tr = t1 ++ t2 ∧ Sys.Run s1 t1 s2 ∧ Sys.Run s2 t2 s ∧ s2.api i = .idle ∧ t1.countP (byCaller i) ≤ b := by
  obtain ⟨p, e1, hw⟩ := entry_within hb
  have hp : s1.api i = .call p := (called_at hc hi).trans e1
  clear hc hi hb e1
  have np : ∀ {b : Nat} {p : Prog Unit}, Within b p → 0 < b ∧ p ≠ .panic := by
    intro b p h
    cases p with
    | ret => exact ⟨h, nofun⟩
    | panic => exact h.elim
    | act => exact ⟨h.1, nofun⟩
    | loop => exact h.elim
  induction h generalizing b p with
  | nil => exact .inl ⟨(np hw).1, p, hp, (np hw).2⟩
  | @cons s1 s2 s3 e es hs hr ih =>
    rcases within_step hs hp hw with ⟨x1, x2⟩ | ⟨x1, x2, x3 | ⟨p', x3, x4⟩⟩
    · rcases ih p hw x2 with ⟨y1, y2⟩ | ⟨t1, t2, s', rfl, y2, y3, y4, y5⟩
      · exact .inl ⟨by rw [List.countP_cons_of_neg (by rw [x1]; decide)]; exact y1, y2⟩
      · exact .inr ⟨e :: t1, t2, s', rfl, .cons hs y2, y3, y4, by rw [List.countP_cons_of_neg (by rw [x1]; decide)]; exact y5⟩
    · exact .inr ⟨[e], es, s2, rfl, .cons hs (.nil _), hr, x3, by rw [List.countP_cons_of_pos x1]; exact x2⟩
    · rcases ih p' x4 x3 with ⟨y1, y2⟩ | ⟨t1, t2, s', rfl, y2, y3, y4, y5⟩
      · exact .inl ⟨by rw [List.countP_cons_of_pos x1]; omega, y2⟩
      · exact .inr ⟨e :: t1, t2, s', rfl, .cons hs y2, y3, y4, by rw [List.countP_cons_of_pos x1]; omega⟩

/-- **C137**: under a scheduler that is fair to the caller, a call of SimplePost, ExtendedPost, CreatePartitionTopics or SetConsumerGroupOffset returns, whatever the other goroutines do. -/
theorem C137 {sv : Server} {clock : Int} {ss : Nat → Sys} {es : Nat → SEv} {F : Goroutine → Prop} (h : KM.Endless sv clock ss es F) {i n b : Nat} {c : Call} (hc : CallsAt ss es i c n)
    (hb : mostOf c = some b) (hF : F (.api i) := by first | exact trivial | assumption) : ∃ m, ReturnsAt ss i n m := by
  obtain ⟨p, e1, hw⟩ := entry_within hb
  have hs := h.step n
  rw [hc.2] at hs
  have hp : (ss (n + 1)).api i = .call p := (called_at hs hc.1).trans e1
  have key : ∀ (b k : Nat) (p : Prog Unit), (ss k).api i = .call p → Within b p → ∃ m, k < m ∧ (ss m).api i = .idle ∧ ∀ j, k ≤ j → j < m → busy ((ss j).api i) := by
    intro b
    induction b with
    | zero =>
      intro k p _ hw
      cases p with
      | ret => exact absurd hw (by unfold Within; decide)
      | act => exact absurd hw.1 (by decide)
      | _ => exact hw.elim
    | succ b ih =>
      intro k p hp hw
      have stays : ∀ {m}, k ≤ m → (∀ j, k ≤ j → j < m → (es j).of ≠ some (.api i)) → (ss m).api i = .call p := by
        intro m hm
        induction hm with
        | refl => intro _; exact hp
        | @step m hm ihm =>
          intro hno
          rcases within_step (h.step m) (ihm fun j a b => hno j a (by omega)) hw with ⟨_, x⟩ | ⟨x, _⟩
          · exact x
          · exact absurd (byCaller_iff.1 x) (hno m hm (by omega))
      obtain ⟨m, m1, m2, m3⟩ := h.first_act (.api i) k fun hno m hm => ⟨m, Nat.le_refl _, by
        show ((ss m).api i).ready (ss m)
        rw [stays hm fun j a _ => hno j a]
        trivial⟩
      have at_ : ∀ j, k ≤ j → j ≤ m → busy ((ss j).api i) := fun j a b => by
        rw [stays a fun j' a' b' => m3 j' a' (by omega)]
        exact ⟨nofun, nofun⟩
      rcases within_step (h.step m) (stays m1 m3) hw with ⟨x, _⟩ | ⟨_, _, x | ⟨p', x1, x2⟩⟩
      · rw [byCaller_iff.2 m2] at x; cases x
      · exact ⟨m + 1, by omega, x, fun j a b => at_ j a (by omega)⟩
      · obtain ⟨m', y1, y2, y3⟩ := ih (m + 1) p' x1 x2
        refine ⟨m', by omega, y2, fun j a b => ?_⟩
        by_cases hj : j ≤ m
        · exact at_ j a hj
        · exact y3 j (by omega) b
  obtain ⟨m, m1, m2, m3⟩ := key b (n + 1) p hp hw
  exact ⟨m, by omega, m2, fun j a b => m3 j (by omega) b⟩

/-- **C136**, with C137: it suffices that finitely many posts to the partition are called and that the scheduler is fair to the callers. -/
theorem C136_settled {sv : Server} {clock : Int} {ns : Nat → Net} {es : Nat → NEv} {F : Goroutine → Prop} {B : Nat} (h : NetEndless sv clock ns es F) (hB : B ≤ 2 ^ 22)
    (hl : ∀ n, Little B sv ((ns n).sys.view 0)) {c : Nat} (w : Working ns es c) (ha : Ample B es c) {t : Bytes} {p : I32} {idx : Nat → Nat} {ms : Nat → List MessageV1}
    (hc : Consuming es c t p 0 idx ms) {calls : List Nat} (hn : calls.Nodup) (hall : ∀ k, k ∈ calls ↔ ∃ i call, PostAt ns es t p k i call)
    (hF : F (.conn c) := by first | exact trivial | assumption) (hapi : ∀ i, F (.api i) := by first | exact fun _ => trivial | assumption) :
    ∃ K N ks, ks.Perm calls ∧ List.Forall₂ (MessageOf ns es N t p) ks ((List.range K).flatMap ms) ∧ ∀ i, K ≤ i → ms i = [] := by
  refine C136_over h hB hl w ha hc hn (fun k i call hk => (hall k).2 ⟨i, call, hk⟩) fun k hk => ?_
  obtain ⟨i, call, hp⟩ := (hall k).1 hk
  have hcall : CallsAt (sysOf ns) (evOf es) i call.call k := ⟨hp.idle, by unfold evOf; rw [hp.event]; rfl⟩
  have hb : ∃ b, mostOf call.call = some b := by
    unfold PostCall.call
    split <;> exact ⟨_, rfl⟩
  obtain ⟨b, hb⟩ := hb
  obtain ⟨m, m1, m2, _⟩ := C137 h.endless hcall hb (hapi i)
  exact ⟨i, call, m, hp, m, m1, Nat.le_refl _, .inr m2⟩

end KM.Props
