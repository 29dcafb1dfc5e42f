import Verif.Live
import Verif.Serve
import Verif.Request
import Verif.Props.FetchLive
/-
Fetch requests that have room for the records of their partitions, and what follows for connections whose context is cancelled.
-/
namespace KM
open Props Spec

/-- The Fetch request that a message is, if it is one: its header names version 2 of Fetch and the fields of the request can be read. -/
def fetchAsked (m : Bytes) : Option FetchRequest :=
  match readHeader ⟨m⟩ 0 with
  | .ok next (k, v, _) =>
    if GoMap.get apiTable (makeApiKey k.toInt v.toInt) = some .fetch then
      match readRequest fetchRequestFields (Reader.discard ⟨m⟩ next) with
      | .ok v _ => some (.ofDen v)
      | _ => none
    else none
  | _ => none

/-- A Fetch as a client writes it is the request it means. -/
theorem fetchAsked_client {q : FetchRequest} (hw : (Request.fetch q).WellFormed) (c : I32) (client : Option Bytes) (h : ∀ x ∈ client, ShortStr x)
    (hh : (header 1 2 c client).length ≤ 4096) (hb : (Request.fetch q).body.length ≤ 4096) (extra : Bytes) :
    fetchAsked (header 1 2 c client ++ ((Request.fetch q).body ++ extra)) = some q := by
  have h2 := (reads_readHeader 1 2 c client h ⟨header 1 2 c client ++ ((Request.fetch q).body ++ extra)⟩ 0 (Nat.zero_le _)).1
    (((Request.fetch q).body ++ extra).take (4096 - (header 1 2 c client).length)) (by
    rw [window_take, List.drop_zero, List.take_append, List.take_of_length_le hh])
  unfold fetchAsked
  rw [h2]
  dsimp only
  rw [if_pos (by decide)]
  have hr := readRequest_ok (request_reads hw (fs := fetchRequestFields) (v := q.toDen) rfl) hb extra
  simp only [Reader.discard, Nat.zero_add, List.drop_left]
  rw [hr]
  dsimp only
  rw [FetchRequest.ofDen_toDen]

theorem finish_cost (n : Nat) (c : I32) (h : HRes) : (finish n c h).Cost stepCost anyResp (fun _ => True) 4 := by
  have hf : ∀ m, sendFailed.Cost stepCost anyResp (fun _ => True) (m + 1) := fun m => ⟨Nat.le_add_left .., fun _ _ => trivial⟩
  unfold finish
  split
  · trivial
  · split
    · trivial
    · split
      · trivial
      · refine ⟨(by decide : 1 ≤ 4), fun ok1 _ => ?_⟩
        dsimp only
        split
        · refine ⟨(by decide : 1 ≤ 3), fun ok2 _ => ?_⟩
          dsimp only
          split
          · refine ⟨(by decide : 1 ≤ 2), fun ok3 _ => ?_⟩
            dsimp only
            split
            · trivial
            · exact hf 0
          · exact hf 1
        · exact hf 2

theorem dispatcher_fetch {sv : Server} {m : Bytes} {n : Nat} {q : FetchRequest} (h : fetchAsked m = some q) :
    ∃ K : FetchResponse → Prog DRes, dispatcher sv ⟨m⟩ n = (fetch q).bind K ∧ ∀ x, (K x).Cost stepCost anyResp (fun _ => True) 4 := by
  unfold fetchAsked at h
  split at h
  · next next k v c h1 =>
    split at h
    · next h3 =>
      split at h
      · next v r h4 =>
        cases h
        refine ⟨fun x => (finish n c (.ok ⟨fetchResponseTy, x.toDen⟩ r)), ?_, fun x => finish_cost ..⟩
        rw [dispatcher_eq, h1]
        dsimp only
        rw [h3]
        show (withRequest fetchRequestFields _ _).bind _ = _
        unfold withRequest
        rw [h4]
        rw [Prog.bind_assoc]
        exact Prog.bind_assoc ..
      · cases h
    · cases h
  · cases h

theorem dispatcher_other {sv : Server} {m : Bytes} {n : Nat} {ok : (a : Act) → a.Resp → Prop} (h : fetchAsked m = none) :
    (dispatcher sv ⟨m⟩ n).Stoppable ok := by
  rw [dispatcher_eq]
  unfold fetchAsked at h
  split
  · trivial
  · trivial
  · next next k v c h1 =>
    rw [h1] at h
    dsimp only at h
    split
    · trivial
    · next api h3 =>
      refine Prog.Stoppable.bind ?_ fun _ => finish_stoppable ..
      by_cases ha : api = .fetch
      · subst ha
        rw [if_pos h3] at h
        show (withRequest fetchRequestFields _ _).Stoppable ok
        unfold withRequest
        split
        · trivial
        · trivial
        · next h4 => rw [h4] at h; cases h
      · exact handler_stoppable_other sv api ha _

/-- The limits of a Fetch have room for the records of its partitions from the requested offsets on. -/
def Room (w : World) (q : FetchRequest) : Prop :=
  ∀ src ∈ q.named, (∀ r ∈ w.log src.1 src.2.partition, wireSize r < 2 ^ 31) ∧ (((available w src).map wireSize).sum : Nat) ≤ max 0 src.2.maxBytes.toInt

/-- With room, a Fetch performs no more actions than this. -/
def mostActions (q : FetchRequest) : Nat :=
  q.topics.length + q.named.length + 1 +
    ((q.named.map fun src => src.2.maxBytes.toInt.toNat).sum + q.maxWaitMs.toInt.toNat / 20 + 2) * (q.named.length + 3)

theorem sum_map_le {α : Type} {f g : α → Nat} {l : List α} (h : ∀ x ∈ l, f x ≤ g x) : (l.map f).sum ≤ (l.map g).sum := by
  induction l with
  | nil => exact Nat.le_refl _
  | cons x l ih =>
    have := h x (List.mem_cons_self ..)
    have := ih fun y hy => h y (List.mem_cons_of_mem _ hy)
    simp only [List.map_cons, List.sum_cons]; omega

theorem Room.before {w w' : World} {tr : List Ev} {q : FetchRequest} (hs : Steps w tr w') (h : Room w' q) : Room w q := by
  intro src hsrc
  obtain ⟨h1, h2⟩ := h src hsrc
  have e := hs.log src.1 src.2.partition
  refine ⟨fun r hr => h1 r (by rw [e]; exact List.mem_append_left _ hr), ?_⟩
  have : ((available w src).map wireSize).sum ≤ ((available w' src).map wireSize).sum := by
    unfold available
    rw [e, List.drop_append, List.map_append, List.sum_append]
    exact Nat.le_add_right ..
  omega

theorem fetch_actions {q : FetchRequest} {w w' : World} {tr : List Ev} {x : Prog FetchResponse} (h : Exec w (fetch q) tr w' x) (hr : Room w' q) :
    (own tr).length ≤ mostActions q := by
  refine Nat.le_trans (C36_completes_partial h (fun src hs => (hr src hs).1) fun src hs => (hr src hs).2) ?_
  unfold mostActions
  refine Nat.add_le_add_left (Nat.mul_le_mul_right _ (Nat.add_le_add_right (Nat.add_le_add_right (sum_map_le fun src hs => ?_) _) _)) _
  have h1 := (hr src hs).2
  have h2 : (available w' src).length ≤ ((available w' src).map wireSize).sum := by
    generalize available w' src = l
    induction l with
    | nil => exact Nat.le_refl _
    | cons r l ih =>
      have : 34 ≤ wireSize r := by unfold wireSize; omega
      simp only [List.length_cons, List.map_cons, List.sum_cons]; omega
  omega

/-! ### Requests are served one at a time -/

/-- Requests are taken up and laid down in turn. Records are looked up only between, and the connection is read and closed only outside; `b` says whether a
request is taken up. -/
def Tidy : Bool → List REv → Prop
  | _, [] => True
  | b, e :: l => match e.act with
    | .reqBegin _ => b = false ∧ Tidy true l
    | .reqEnd => b = true ∧ Tidy false l
    | .fetchRecord .. => b = true ∧ Tidy b l
    | .recv | .close => b = false ∧ Tidy b l
    | _ => Tidy b l

theorem tidy_inner {l l' : List REv} (h : ∀ e ∈ l, Inner e.act) (h' : Tidy true l') : Tidy true (l ++ l') := by
  induction l with
  | nil => exact h'
  | cons e l ih =>
    have hi := ih fun e he => h e (List.mem_cons_of_mem _ he)
    have he := h e (List.mem_cons_self ..)
    obtain ⟨a, r⟩ := e
    cases a <;> first | exact he.elim | exact ⟨rfl, hi⟩ | exact hi

theorem conv_tidy {sv : Server} {inb : Bytes} {l : List REv} {q : Prog Unit} (h : Conv sv inb l q) : Tidy false l := by
  have hd : ∀ {m : Bytes} {l : List REv} {x : Prog DRes}, Own (dispatcher sv ⟨m⟩ m.length) l x → ∀ e ∈ l, Inner e.act :=
    fun h => (h.only (dispatcher_onlyInner sv _ _)).2
  induction h with
  | head => trivial
  | part _ hl =>
    rcases hl with rfl | ⟨d, rfl⟩ | rfl | ⟨r, rfl⟩
    · trivial
    · trivial
    · exact ⟨rfl, trivial⟩
    · exact ⟨rfl, trivial⟩
  | timeout _ _ ih => exact ⟨rfl, ih⟩
  | ignored _ _ ih => exact ⟨rfl, ih⟩
  | read _ _ ih => exact ⟨rfl, ih⟩
  | huge => trivial
  | begin => trivial
  | @serving inb m l x q _ hx =>
    have := tidy_inner (l' := []) (hd hx) trivial
    rw [List.append_nil] at this
    exact ⟨rfl, this⟩
  | rejected _ hx => exact ⟨rfl, tidy_inner (hd hx) ⟨rfl, trivial⟩⟩
  | served _ hx _ ih => exact ⟨rfl, tidy_inner (hd hx) ⟨rfl, ih⟩⟩

theorem tidy_drop {b : Bool} {l1 l2 : List REv} (h : Tidy b (l1 ++ l2)) : ∃ b', Tidy b' l2 := by
  induction l1 generalizing b with
  | nil => exact ⟨b, h⟩
  | cons e l1 ih =>
    obtain ⟨a, r⟩ := e
    cases a <;> first | exact ih h.2 | exact ih h

theorem tidy_last {b : Bool} {l1 l2 : List REv} {t : Bytes} {p : I32} {o : Int} {r : Act.Resp (.fetchRecord t p o)}
    (h : Tidy b (l1 ++ ⟨.fetchRecord t p o, r⟩ :: l2)) (hno : ∀ m, (⟨.reqBegin m, ()⟩ : REv) ∉ l1) : b = true ∧ (⟨.reqEnd, ()⟩ : REv) ∉ l1 := by
  induction l1 generalizing b with
  | nil => exact ⟨h.1, List.not_mem_nil⟩
  | cons e l1 ih =>
    have hno' : ∀ m, (⟨.reqBegin m, ()⟩ : REv) ∉ l1 := fun m hm => hno m (List.mem_cons_of_mem _ hm)
    have nm : ∀ {a : Act} {x : a.Resp}, a ≠ .reqEnd → (⟨.reqEnd, ()⟩ : REv) ∉ l1 → (⟨.reqEnd, ()⟩ : REv) ∉ (⟨a, x⟩ : REv) :: l1 := by
      intro a x ha hl hm
      rcases List.mem_cons.1 hm with e | e
      · cases e; exact ha rfl
      · exact hl e
    obtain ⟨a, x⟩ := e
    cases a with
    | reqBegin m => exact absurd (List.mem_cons_self ..) (hno m)
    | reqEnd => cases (ih h.2 hno').1
    | fetchRecord | recv | close => obtain ⟨i1, i2⟩ := ih h.2 hno'; exact ⟨i1, nm nofun i2⟩
    | _ => obtain ⟨i1, i2⟩ := ih (b := b) h hno'; exact ⟨i1, nm nofun i2⟩

/-- When the connection is read or closed, all requests taken up have been laid down. -/
theorem tidy_outer {b : Bool} {l1 l2 : List REv} {e : REv} (ho : e.act = .recv ∨ e.act = .close) (h : Tidy b (l1 ++ e :: l2)) :
    ended l1 = (served l1).length + b.toNat := by
  induction l1 generalizing b with
  | nil =>
    have hb : b = false := by
      obtain ⟨a, r⟩ := e
      rcases ho with e | e <;> cases e <;> exact h.1
    subst hb; rfl
  | cons x l1 ih =>
    obtain ⟨a, r⟩ := x
    cases a with
    | reqBegin m =>
      have h1 := ih h.2
      have hb : b = false := h.1
      subst hb
      show ended l1 = (served l1).length + 1 + 0
      exact h1
    | reqEnd =>
      have h1 := ih h.2
      have hb : b = true := h.1
      subst hb
      show ended l1 + 1 = (served l1).length + 1
      rw [h1]; rfl
    | fetchRecord | recv | close => exact ih h.2
    | _ => exact ih (b := b) h

/-! ### Endless runs -/

variable {sv : Server} {clock : Int} {ss : Nat → Sys} {es : Nat → SEv}

/-- `k` events of an endless run, from number `n` on. -/
def evs (es : Nat → SEv) (n k : Nat) : List SEv := (List.range k).map fun i => es (n + i)

theorem evs_succ (es : Nat → SEv) (n k : Nat) : evs es n (k + 1) = evs es n k ++ [es (n + k)] := by
  unfold evs
  rw [List.range_succ, List.map_append]; rfl

theorem evs_add (es : Nat → SEv) (n k k' : Nat) : evs es n (k + k') = evs es n k ++ evs es (n + k) k' := by
  induction k' with
  | zero => simp [evs]
  | succ k' ih => rw [← Nat.add_assoc, evs_succ, evs_succ, ih, List.append_assoc, Nat.add_assoc]

theorem mem_evs {es : Nat → SEv} {n k : Nat} {e : SEv} (h : e ∈ evs es n k) : ∃ j, n ≤ j ∧ j < n + k ∧ es j = e := by
  obtain ⟨i, h1, h2⟩ := List.mem_map.1 h
  have := List.mem_range.1 h1
  exact ⟨n + i, by omega, by omega, h2⟩

theorem Endless.evs (h : Endless sv clock ss es F) (n k : Nat) : Sys.Run (ss n) (evs es n k) (ss (n + k)) := by
  induction k with
  | zero => exact .nil _
  | succ k ih => rw [evs_succ]; exact ih.append (.cons (h.step _) (.nil _))

theorem mem_actsOf {c : Nat} {tr : List SEv} {a : Act} {r : a.Resp} (h : (⟨a, r⟩ : REv) ∈ actsOf c tr) : .conn c a r ∈ tr := by
  unfold actsOf at h
  obtain ⟨e, he, h5⟩ := List.mem_filterMap.1 h
  cases e with
  | conn c' a' r' =>
    simp only at h5
    split at h5
    · next e => cases h5; subst e; exact he
    · cases h5
  | _ => cases h5

theorem actsOf_one {c : Nat} {a : Act} {r : a.Resp} : actsOf c [.conn c a r] = [⟨a, r⟩] := by simp [actsOf]

/-- An action of a connection is what its program does next. -/
theorem step_conn_acts {s s' : Sys} {c : Nat} {a : Act} {r : a.Resp} (h : Sys.Step s (.conn c a r) s') :
    ∃ (k : ConnG) (f : a.Resp → Prog Unit), s.conns[c]? = some k ∧ k.pc = .body (.act a f) ∧ s'.conns[c]? = some { k with pc := .body (f r) } := by
  obtain ⟨k, a1, a2⟩ := step_conn_self h (c := c) rfl
  cases h with
  | @conn _ k' _ f _ w hc hp =>
    refine ⟨k', f, hc, hp, ?_⟩
    rw [a1] at hc; cases hc
    cases a2 with
    | act hq he _ hk => cases he; rw [hp] at hq; cases hq; exact hk
    | loop hq => rw [hp] at hq; cases hq
    | ret hq => rw [hp] at hq; cases hq
    | oc hq => rw [hp] at hq; cases hq

/-- What happens again and again happens as often as one likes. -/
theorem often {P : REv → Bool} {c : Nat} (h : ∀ n, ∃ m, n ≤ m ∧ ∃ (a : Act) (r : a.Resp), es m = .conn c a r ∧ P ⟨a, r⟩ = true) (n K : Nat) :
    ∃ d, K ≤ (actsOf c (evs es n d)).countP P := by
  induction K with
  | zero => exact ⟨0, Nat.zero_le _⟩
  | succ K ih =>
    obtain ⟨d, hd⟩ := ih
    obtain ⟨m, h1, a, r, h2, h3⟩ := h (n + d)
    refine ⟨d + ((m - (n + d)) + 1), ?_⟩
    rw [evs_add, actsOf_append, List.countP_append, evs_succ, actsOf_append, List.countP_append,
      show n + d + (m - (n + d)) = m by omega, h2, actsOf_one, List.countP_singleton, if_pos h3]
    omega

theorem served_length (l : List REv) : (served l).length = l.countP fun e => match e.act with | .reqBegin _ => true | _ => false := by
  induction l with
  | nil => rfl
  | cons e l ih =>
    rw [List.countP_cons, ← ih]
    obtain ⟨a, r⟩ := e
    cases a <;> rfl

theorem framesN_length (n : Nat) (s : Bytes) : (framesN n s).length ≤ s.length := by
  induction n generalizing s with
  | zero => exact Nat.zero_le _
  | succ n ih =>
    unfold framesN
    split
    · next h =>
      have := ih (s.drop (4 + be (s.take 4)))
      rw [List.length_drop] at this
      rw [List.length_cons]; omega
    · exact Nat.zero_le _

theorem last_time {P : Nat → Prop} {N : Nat} (hN : ∀ j, N ≤ j → ¬ P j) {i : Nat} (hi : P i) : ∃ n, P n ∧ ∀ j, n < j → ¬ P j := by
  generalize hd : N - i = d
  induction d using Nat.strongRecOn generalizing i with
  | ind d ih =>
    by_cases hx : ∃ j, i < j ∧ P j
    · obtain ⟨j, h1, h2⟩ := hx
      have : ¬ N ≤ j := fun h => hN j h h2
      exact ih (N - j) (by omega) h2 rfl
    · exact ⟨i, hi, fun j h1 h2 => hx ⟨j, h1, h2⟩⟩

/-- After cancellation a connection takes up finitely many requests. -/
theorem Endless.begins_finite (h : Endless sv clock ss es F) {c n : Nat} {k : ConnG} {p : Prog Unit} (hk : (ss n).conns[c]? = some k) (hp : k.pc = .body p)
    (hd : (ss n).isDone k.ctx = true) (hF : F (.conn c) := by first | exact trivial | assumption) : ∃ N, ∀ j, N ≤ j → ∀ m, es j ≠ .conn c (.reqBegin m) () := by
  refine Classical.byContradiction fun hno => ?_
  have inf : ∀ n, ∃ m, n ≤ m ∧ ∃ (a : Act) (r : a.Resp), es m = .conn c a r ∧ (match (⟨a, r⟩ : REv).act with | .reqBegin _ => true | _ => false) = true :=
    fun n => Classical.byContradiction fun hn => hno ⟨n, fun j hj m he => hn ⟨j, hj, _, _, he, rfl⟩⟩
  have h0 := h.evs 0 n
  rw [Nat.zero_add, h.first] at h0
  obtain ⟨d, hd'⟩ := often (P := fun e => match e.act with | .reqBegin _ => true | _ => false) inf n ((received (actsOf c (KM.evs es 0 n))).length + 8193)
  obtain ⟨w, w', e1, e2, p2, x1, x2, o1, o2⟩ := h0.connection_at (h.evs n d) hk hp
  obtain ⟨b, hb, hpre⟩ := C49_only_buffered x1 hd x2
  have := hpre.length_le
  have hf := framesN_length (received (own e1) ++ b).length (received (own e1) ++ b)
  unfold frames at this
  rw [served_length, List.countP_append, o2] at this
  rw [o1] at this hf
  have hl := List.length_append (as := received (actsOf c (KM.evs es 0 n))) (bs := b)
  omega

/-! ### The next step of a connection -/

theorem Endless.conn_next (h : Endless sv clock ss es F) {n c : Nat} {k : ConnG} {p : Prog Unit} (hc : (ss n).conns[c]? = some k) (hp : k.pc = .body p) (hF : F (.conn c) := by first | exact trivial | assumption) :
    ∃ m, n ≤ m ∧ (∀ j, n ≤ j → j < m → (es j).of ≠ some (.conn c)) ∧ ConnStep (ss m) (ss (m + 1)) c k (es m) := by
  obtain ⟨m, m1, m2, m3⟩ := h.first_act (.conn c) n fun hno m hm => ⟨m, Nat.le_refl _, k, h.conn_stays hm hc fun j h1 _ => hno j h1, by rw [hp]; trivial⟩
  obtain ⟨k0, a1, a2⟩ := step_conn_self (h.step m) m2
  rw [h.conn_stays m1 hc m3] at a1; cases a1
  exact ⟨m, m1, m3, a2⟩

theorem Endless.conn_act (h : Endless sv clock ss es F) {n c : Nat} {k : ConnG} {a : Act} {f : a.Resp → Prog Unit} (hc : (ss n).conns[c]? = some k)
    (hp : k.pc = .body (.act a f)) (hF : F (.conn c) := by first | exact trivial | assumption) : ∃ m r, n ≤ m ∧ (∀ j, n ≤ j → j < m → (es j).of ≠ some (.conn c)) ∧ es m = .conn c a r ∧
      (ss (m + 1)).conns[c]? = some { k with pc := .body (f r) } := by
  obtain ⟨m, m1, m2, m3⟩ := h.conn_next hc hp
  cases m3 with
  | act hq he _ hk => rw [hp] at hq; cases hq; exact ⟨m, _, m1, m2, he, hk⟩
  | loop hq => rw [hp] at hq; cases hq
  | ret hq => rw [hp] at hq; cases hq
  | oc hq => rw [hp] at hq; cases hq

theorem Endless.conn_loop (h : Endless sv clock ss es F) {n c : Nat} {k : ConnG} {σ β : Type} {x : σ} {body : σ → Prog (σ ⊕ β)} {f : β → Prog Unit}
    (hc : (ss n).conns[c]? = some k) (hp : k.pc = .body (.loop x body f)) (hF : F (.conn c) := by first | exact trivial | assumption) :
    ∃ m, n ≤ m ∧ (ss (m + 1)).conns[c]? = some { k with pc := .body (Prog.unroll x body f) } := by
  obtain ⟨m, m1, _, m3⟩ := h.conn_next hc hp
  cases m3 with
  | act hq => rw [hp] at hq; cases hq
  | loop hq hk => rw [hp] at hq; cases hq; exact ⟨m, m1, hk⟩
  | ret hq => rw [hp] at hq; cases hq
  | oc hq => rw [hp] at hq; cases hq

theorem Endless.conn_panic (h : Endless sv clock ss es F) {n c : Nat} {k : ConnG} (hc : (ss n).conns[c]? = some k) (hp : k.pc = .body .panic) (hF : F (.conn c) := by first | exact trivial | assumption) : False := by
  obtain ⟨m, _, _, m3⟩ := h.conn_next hc hp
  cases m3 with
  | act hq => rw [hp] at hq; cases hq
  | loop hq => rw [hp] at hq; cases hq
  | ret hq => rw [hp] at hq; cases hq
  | oc hq => rw [hp] at hq; cases hq

theorem Endless.conn_ret (h : Endless sv clock ss es F) {n c : Nat} {k : ConnG} (hc : (ss n).conns[c]? = some k) (hp : k.pc = .body (.ret ())) (hF : F (.conn c) := by first | exact trivial | assumption) :
    ∃ m, n < m ∧ (ss m).conns[c]? = some { k with pc := .oc .lock } := by
  obtain ⟨m, m1, _, m3⟩ := h.conn_next hc hp
  cases m3 with
  | act hq => rw [hp] at hq; cases hq
  | loop hq => rw [hp] at hq; cases hq
  | ret _ hk => exact ⟨m + 1, by omega, hk⟩
  | oc hq => rw [hp] at hq; cases hq

theorem Prog.Halts.mono {ok ok' : (a : Act) → a.Resp → Prop} {α : Type} {p : Prog α} (h : p.Halts ok) (hok : ∀ a r, ok' a r → ok a r) : p.Halts ok' := by
  induction h with
  | ret v => exact .ret v
  | panic => exact .panic
  | act _ ih => exact .act fun r hr => ih r (hok _ _ hr)
  | loop _ ih => exact .loop ih

/-- A connection performs an action, or leaves its loop. -/
theorem Endless.acts (h : Endless sv clock ss es F) {n c : Nat} {k : ConnG} {p : Prog Unit} (hc : (ss n).conns[c]? = some k) (hp : k.pc = .body p) (hF : F (.conn c) := by first | exact trivial | assumption) :
    ∃ m, n ≤ m ∧ ((∃ (a : Act) (r : a.Resp), es m = .conn c a r) ∨ (ss m).conns[c]? = some { k with pc := .oc .lock }) := by
  have hh : p.Halts fun _ _ => False := (h.stoppable n hc hp).halts.mono fun _ _ h => h.elim
  have gen : ∀ {α : Type} (p : Prog α), (p.Halts fun _ _ => False) → ∀ (hα : α = Unit) (n : Nat) (k : ConnG), (ss n).conns[c]? = some k →
      k.pc = .body (hα ▸ p) → ∃ m, n ≤ m ∧ ((∃ (a : Act) (r : a.Resp), es m = .conn c a r) ∨ (ss m).conns[c]? = some { k with pc := .oc .lock }) := by
    intro α p hh
    induction hh with
    | ret v =>
      intro hα n k hc hp
      subst hα
      obtain ⟨m, m1, m2⟩ := h.conn_ret hc hp
      exact ⟨m, by omega, .inr m2⟩
    | panic =>
      intro hα n k hc hp
      subst hα
      exact (h.conn_panic hc hp).elim
    | act =>
      intro hα n k hc hp
      subst hα
      obtain ⟨m, r, m1, _, m2, _⟩ := h.conn_act hc hp
      exact ⟨m, m1, .inl ⟨_, r, m2⟩⟩
    | loop _ ih =>
      intro hα n k hc hp
      subst hα
      obtain ⟨m, m1, m2⟩ := h.conn_loop hc hp
      obtain ⟨m', a, b⟩ := ih rfl (m + 1) _ m2 rfl
      exact ⟨m', by omega, b⟩
  exact gen p hh rfl n k hc hp

/-! ### A request taken up is laid down -/

/-- After event number `n` connection `c` has request `m` taken up. -/
def Busy (es : Nat → SEv) (c : Nat) (m : Bytes) (n : Nat) : Prop :=
  ∃ b, b < n ∧ es b = .conn c (.reqBegin m) () ∧ ∀ j, b < j → j < n → es j ≠ .conn c .reqEnd ()

/-- Every Fetch on connection `c` has room, all the time it is served. -/
def RoomyOn (ss : Nat → Sys) (es : Nat → SEv) (c : Nat) : Prop :=
  ∀ n m q, Busy es c m n → fetchAsked m = some q → Room ((ss n).view 0) q

/-- Every Fetch has room, all the time it is served. -/
def Roomy (ss : Nat → Sys) (es : Nat → SEv) : Prop := ∀ c, RoomyOn ss es c

/-- With room, serving a Fetch takes no more actions than this. -/
theorem dispatcher_actions {sv : Server} {m : Bytes} {n : Nat} {q : FetchRequest} (ha : fetchAsked m = some q) {w w' : World} {tr : List Ev} {x : Prog DRes}
    (h : Exec w (dispatcher sv ⟨m⟩ n) tr w' x) (hr : Room w' q) : (own tr).length ≤ mostActions q + 4 := by
  obtain ⟨K, e, hK⟩ := dispatcher_fetch (sv := sv) (n := n) ha
  rw [e] at h
  rcases exec_bind_inv h with ⟨x', h1, _⟩ | ⟨t1, t2, w1, v, h1, h2, rfl⟩
  · exact Nat.le_trans (fetch_actions h1 hr) (Nat.le_add_right ..)
  · rw [own_append, List.length_append]
    have h3 := fetch_actions h1 (hr.before h2.steps)
    have h4 := (h2.cost (ok := anyResp) (fun _ _ => trivial) (hK v)).1
    rw [show cost stepCost (own t2) = (own t2).length from cost_one _] at h4
    omega

/-- Serving a request, up to the moment at which it is laid down. -/
theorem serving {sv : Server} {m : Bytes} {G : DRes → Prog Unit} (hG : ∀ res, ∃ g, G res = .act .reqEnd g) {w w' : World} {l : List Ev} {p' : Prog Unit}
    (h : Exec w ((dispatcher sv ⟨m⟩ m.length).bind G) l w' p') (hno : (⟨.reqEnd, ()⟩ : REv) ∉ own l) :
    ∃ x, Exec w (dispatcher sv ⟨m⟩ m.length) l w' x ∧ p' = x.bind G := by
  rcases exec_bind_inv h with h | ⟨ta, tb, wm, res, h5, h6, rfl⟩
  · exact h
  · obtain ⟨g, hg⟩ := hG res
    rw [hg] at h6
    rcases exec_act_inv h6 with ⟨h7, h8⟩ | ⟨t3, r, w2, w3, t4, _, _, _, h7⟩
    · exact ⟨.ret res, h5.trans (h8.exec _), by rw [h7, ← hg]; rfl⟩
    · exact absurd (mem_own.2 (by rw [h7]; simp)) hno

/-- What a connection runs after taking up a request. -/
theorem Endless.taken_err (h : Endless sv clock ss es F) {c b : Nat} {m : Bytes} (hb : es b = .conn c (.reqBegin m) ()) :
    ∃ (k : ConnG) (G : DRes → Prog Unit), (ss (b + 1)).conns[c]? = some k ∧ k.pc = .body ((dispatcher sv ⟨m⟩ m.length).bind G) ∧
      ∀ res, ∃ g, G res = .act .reqEnd g ∧ (res = .err → g () = .panic) := by
  have hst := h.step b
  have h0 := h.evs 0 b
  rw [Nat.zero_add, h.first] at h0
  rw [hb] at hst
  obtain ⟨k, f, a1, hq, hk⟩ := step_conn_acts hst
  obtain ⟨w, w', e1, e2, p2, x1, _⟩ := h0.connection_at (.nil _) a1 hq
  obtain ⟨G, hG, hf⟩ := handle_reqBegin_err x1
  exact ⟨_, G, hk, congrArg ConnPc.body hf, hG⟩

theorem Endless.taken (h : Endless sv clock ss es F) {c b : Nat} {m : Bytes} (hb : es b = .conn c (.reqBegin m) ()) :
    ∃ (k : ConnG) (G : DRes → Prog Unit), (ss (b + 1)).conns[c]? = some k ∧ k.pc = .body ((dispatcher sv ⟨m⟩ m.length).bind G) ∧
      ∀ res, ∃ g, G res = .act .reqEnd g := by
  obtain ⟨k, G, hk, hp, hG⟩ := h.taken_err hb
  exact ⟨k, G, hk, hp, fun res => ⟨_, (hG res).choose_spec.1⟩⟩

theorem no_reqEnd {c b d : Nat} (h : ∀ j, b ≤ j → j < b + d → es j ≠ .conn c .reqEnd ()) : (⟨.reqEnd, ()⟩ : REv) ∉ actsOf c (evs es b d) := by
  intro hm
  obtain ⟨i, i1, i2, e⟩ := mem_evs (mem_actsOf hm)
  exact h i i1 i2 e

/-- While a request is served, the connection is in its loop. -/
theorem Endless.in_service (h : Endless sv clock ss es F) {c b : Nat} {m : Bytes} {k : ConnG} {G : DRes → Prog Unit} (hk : (ss b).conns[c]? = some k)
    (hp : k.pc = .body ((dispatcher sv ⟨m⟩ m.length).bind G)) (hG : ∀ res, ∃ g, G res = .act .reqEnd g) (d : Nat)
    (hno : ∀ j, b ≤ j → j < b + d → es j ≠ .conn c .reqEnd ()) :
    ∃ (l : List Ev) (x : Prog DRes), (ss (b + d)).conns[c]? = some { k with pc := .body (x.bind G) } ∧
      Exec ((ss b).view k.ctx) (dispatcher sv ⟨m⟩ m.length) l ((ss (b + d)).view k.ctx) x ∧ own l = actsOf c (KM.evs es b d) := by
  have hn := no_reqEnd hno
  obtain ⟨k', hk', h1, h2, h3, hx⟩ := (h.evs b d).project hk hp
  rcases hx with ⟨p', l, h4, x1, x2, _⟩ | ⟨_, l, w, x1, x2⟩
  · obtain ⟨x, x3, x4⟩ := serving hG x1 (by rw [x2]; exact hn)
    refine ⟨l, x, ?_, x3, x2⟩
    rw [hk']
    cases k'; cases k
    cases h1; cases h2; cases h3
    rw [← x4]
    simp only at h4 ⊢
    rw [h4]
  · obtain ⟨x, _, x4⟩ := serving hG x1 (by rw [x2]; exact hn)
    exact absurd x4.symm (bind_ne_ret fun a e => by obtain ⟨g, hg⟩ := hG a; rw [hg] at e; cases e)

/-- When every Fetch has room, every request taken up is laid down. -/
theorem Endless.lays_down (h : Endless sv clock ss es F) {c b : Nat} {m : Bytes} (hr : RoomyOn ss es c) (hb : es b = .conn c (.reqBegin m) ()) (hF : F (.conn c) := by first | exact trivial | assumption) :
    ∃ e, b < e ∧ es e = .conn c .reqEnd () ∧ ∀ j, b < j → j < e → es j ≠ .conn c .reqEnd () := by
  suffices ∃ e, b < e ∧ es e = .conn c .reqEnd () by
    obtain ⟨e, e1, e2⟩ := this
    obtain ⟨e, a1, a2, a3⟩ := first_time (P := fun e => es e = .conn c .reqEnd ()) (n := b + 1) e1 e2
    exact ⟨e, a1, a2, fun j h1 h2 => a3 j h1 h2⟩
  refine Classical.byContradiction fun hno => ?_
  have never : ∀ i, b + 1 ≤ i → es i ≠ .conn c .reqEnd () := fun i h1 h2 => hno ⟨i, h1, h2⟩
  obtain ⟨k, G, hk, hp, hG⟩ := h.taken hb
  have busy : ∀ d, ∃ (l : List Ev) (x : Prog DRes), (ss (b + 1 + d)).conns[c]? = some { k with pc := .body (x.bind G) } ∧
      Exec ((ss (b + 1)).view k.ctx) (dispatcher sv ⟨m⟩ m.length) l ((ss (b + 1 + d)).view k.ctx) x ∧ own l = actsOf c (KM.evs es (b + 1) d) :=
    fun d => h.in_service hk hp hG d fun j h1 _ => never j h1
  have inf : ∀ n, ∃ m, n ≤ m ∧ ∃ (a : Act) (r : a.Resp), es m = .conn c a r ∧ (fun _ => true) (⟨a, r⟩ : REv) = true := by
    intro n
    obtain ⟨l, x, x1, _⟩ := busy (max n (b + 1) - (b + 1))
    have hmax := Nat.le_max_left n (b + 1)
    have hmax' := Nat.le_max_right n (b + 1)
    rw [show b + 1 + (max n (b + 1) - (b + 1)) = max n (b + 1) by omega] at x1
    obtain ⟨m', m1, m2⟩ := h.acts x1 rfl
    rcases m2 with ⟨a, r, e⟩ | e
    · exact ⟨m', by omega, a, r, e, rfl⟩
    · obtain ⟨l', x', y1, _⟩ := busy (m' - (b + 1))
      rw [show b + 1 + (m' - (b + 1)) = m' by omega, e] at y1
      cases y1
  cases ha : fetchAsked m with
  | some q =>
    obtain ⟨d, hd⟩ := often (es := es) (c := c) (P := fun _ => true) inf (b + 1) (mostActions q + 5)
    obtain ⟨l, x, _, x1, x2⟩ := busy d
    have hroom : Room ((ss (b + 1 + d)).view k.ctx) q := hr _ m q ⟨b, by omega, hb, fun j h1 _ => never j (by omega)⟩ ha
    have := dispatcher_actions ha x1 hroom
    rw [x2] at this
    have hl := List.countP_le_length (p := fun _ => true) (l := actsOf c (KM.evs es (b + 1) d))
    omega
  | none =>
    -- the dispatcher ends by itself
    have out : ∀ {β : Type} (p : Prog β), (p.Halts fun _ _ => True) → ∀ (hβ : β = DRes) (n : Nat) (k : ConnG), b + 1 ≤ n → (ss n).conns[c]? = some k →
        k.pc = .body ((hβ ▸ p : Prog DRes).bind G) → False := by
      intro β p hh
      induction hh with
      | ret v =>
        intro hβ n k hn hc hp
        subst hβ
        obtain ⟨g, hg⟩ := hG v
        obtain ⟨m', r, m1, _, m2, _⟩ := h.conn_act (a := .reqEnd) (f := g) hc (by rw [hp, ← hg]; rfl)
        exact never m' (by omega) m2
      | panic =>
        intro hβ n k hn hc hp
        subst hβ
        exact h.conn_panic hc hp
      | act _ ih =>
        intro hβ n k hn hc hp
        subst hβ
        obtain ⟨m', r, m1, _, _, m2⟩ := h.conn_act hc hp
        exact ih r trivial rfl (m' + 1) _ (by omega) m2 rfl
      | loop _ ih =>
        intro hβ n k hn hc hp
        subst hβ
        obtain ⟨m', m1, m2⟩ := h.conn_loop hc hp
        refine ih rfl (m' + 1) _ (by omega) m2 ?_
        rw [unroll_bind]
    exact out _ (dispatcher_other (sv := sv) (n := m.length) ha).halts rfl (b + 1) k (Nat.le_refl _) hk hp

/-! ### Cancelled connections -/

/-- When every Fetch has room, no connection finds records without end after cancellation. -/
theorem Endless.not_feeds (h : Endless sv clock ss es) (hr : Roomy ss es) : ¬ Feeds ss es := by
  rintro ⟨c, n1, k1, p1, hk1, hp1, hd, hinf⟩
  obtain ⟨N, hN⟩ := h.begins_finite hk1 hp1 hd
  have inside : ∀ j t p o r, es j = .conn c (.fetchRecord t p o) r → Tidy false (actsOf c (KM.evs es 0 j) ++ [⟨.fetchRecord t p o, r⟩]) := by
    intro j t p o r he
    have h0 := h.evs 0 j
    rw [Nat.zero_add, h.first] at h0
    have hst := h.step j
    rw [he] at hst
    obtain ⟨k, f, a1, hq, _⟩ := step_conn_acts hst
    obtain ⟨w, w', e1, e2, p2, x1, x2, o1, o2⟩ := h0.connection_at (.cons (h.step j) (.nil _)) a1 hq
    have := conv_tidy (handle_conv (x1.trans x2).own)
    rw [own_append, o1, o2, he, actsOf_one] at this
    exact this
  -- the last request
  obtain ⟨b, ⟨m, hb⟩, hlast⟩ : ∃ b, (∃ m, es b = .conn c (.reqBegin m) ()) ∧ ∀ j, b < j → ¬ ∃ m, es j = .conn c (.reqBegin m) () := by
    obtain ⟨j, _, t, p, o, rec, he⟩ := hinf 0
    by_cases hx : ∃ i m, es i = .conn c (.reqBegin m) ()
    · obtain ⟨i, m, hi⟩ := hx
      exact last_time (P := fun i => ∃ m, es i = .conn c (.reqBegin m) ()) (fun j hj ⟨m, hm⟩ => hN j hj m hm) ⟨m, hi⟩
    · have := (tidy_last (inside j _ _ _ _ he) fun m hm => by
        obtain ⟨i, _, _, e⟩ := mem_evs (mem_actsOf hm)
        exact hx ⟨i, m, e⟩).1
      cases this
  -- is laid down; then no more records are looked up
  obtain ⟨i, h1, hi, _⟩ := h.lays_down (hr c) hb
  obtain ⟨j, hj, t, p, o, rec, he⟩ := hinf (i + 1)
  have := inside j t p o _ he
  rw [show j = b + (1 + (j - (b + 1))) by omega, evs_add, actsOf_append, List.append_assoc] at this
  obtain ⟨x, this⟩ := tidy_drop this
  rw [Nat.zero_add, evs_add, actsOf_append, show KM.evs es b 1 = [es b] from rfl, hb, actsOf_one] at this
  refine (tidy_last (b := true) this.2 fun m hm => by
    obtain ⟨i, i1, _, e⟩ := mem_evs (mem_actsOf hm)
    exact hlast i (by omega) ⟨m, e⟩).2 ?_
  refine List.mem_filterMap.2 ⟨es i, List.mem_map.2 ⟨i - (b + 1), List.mem_range.2 (by omega), by rw [show b + 1 + (i - (b + 1)) = i by omega]⟩, ?_⟩
  rw [hi]; simp

end KM
