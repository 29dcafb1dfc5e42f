import Verif.FetchLive
import Verif.Conn
/-
Programs that come to an end, provided the results of their actions satisfy a condition.
-/
namespace KM

/-- Whatever the results of its actions are, as long as they satisfy `ok`, the program ends after finitely many steps. -/
inductive Prog.Halts (ok : (a : Act) → a.Resp → Prop) : {α : Type} → Prog α → Prop where
  | ret {α : Type} (v : α) : Halts ok (.ret v)
  | panic {α : Type} : Halts ok (.panic : Prog α)
  | act {α : Type} {a : Act} {k : a.Resp → Prog α} (h : ∀ r, ok a r → Halts ok (k r)) : Halts ok (.act a k)
  | loop {α σ β : Type} {s : σ} {body : σ → Prog (σ ⊕ β)} {k : β → Prog α} (h : Halts ok (Prog.unroll s body k)) : Halts ok (.loop s body k)

/-- Wherever the program is stopped (after any results), what is left of it ends under `ok`. -/
def Prog.Stoppable (ok : (a : Act) → a.Resp → Prop) : {α : Type} → Prog α → Prop
  | _, .ret _ => True
  | _, .panic => True
  | _, .act a k => Prog.Halts ok (.act a k) ∧ ∀ r, Prog.Stoppable ok (k r)
  | _, .loop _ body k => (∀ s, Prog.Halts ok (.loop s body k)) ∧ (∀ s, Prog.Stoppable ok (body s)) ∧ ∀ b, Prog.Stoppable ok (k b)

variable {ok : (a : Act) → a.Resp → Prop} {α β : Type}

theorem unroll_bind {σ γ : Type} (s : σ) (body : σ → Prog (σ ⊕ γ)) (k : γ → Prog α) (f : α → Prog β) :
    (Prog.unroll s body k).bind f = Prog.unroll s body fun b => (k b).bind f := by
  unfold Prog.unroll
  rw [Prog.bind_assoc]
  congr; funext x; cases x <;> rfl

theorem Prog.Halts.bind {p : Prog α} {f : α → Prog β} (hp : p.Halts ok) (hf : ∀ v, (f v).Halts ok) : (p.bind f).Halts ok := by
  induction hp with
  | ret v => exact hf v
  | panic => exact .panic
  | act h ih => exact .act fun r hr => ih r hr
  | @loop σ γ s body k h ih =>
    refine .loop ?_
    rw [← unroll_bind]
    exact ih

/-- With a postcondition of the first part (which has no loops). -/
theorem Prog.Cost.halts_bind {c : Act → Nat} {Q : α → Prop} {n : Nat} {p : Prog α} {f : α → Prog β} (hp : p.Cost c ok Q n)
    (hf : ∀ v, Q v → (f v).Halts ok) : (p.bind f).Halts ok := by
  induction p generalizing n with
  | ret v => exact hf v hp
  | panic => exact .panic
  | act a k ih => exact .act fun r hr => ih r (hp.2 r hr) hf
  | loop => exact hp.elim

theorem Prog.Stoppable.halts {p : Prog α} (h : p.Stoppable ok) : p.Halts ok := by
  cases p with
  | ret => exact .ret _
  | panic => exact .panic
  | act => exact h.1
  | loop => exact h.1 _

theorem Prog.Stoppable.bind {p : Prog α} {f : α → Prog β} (hp : p.Stoppable ok) (hf : ∀ v, (f v).Stoppable ok) : (p.bind f).Stoppable ok := by
  induction p with
  | ret v => exact hf v
  | panic => trivial
  | act a k ih => exact ⟨hp.1.bind fun v => (hf v).halts, fun r => ih r (hp.2 r) hf⟩
  | loop s body k _ ih => exact ⟨fun s => (hp.1 s).bind fun v => (hf v).halts, hp.2.1, fun b => ih b (hp.2.2 b) hf⟩

theorem Prog.Stoppable.map {p : Prog α} (f : α → β) (hp : p.Stoppable ok) : (p.map f).Stoppable ok := hp.bind fun _ => trivial

theorem Prog.Stoppable.act {a : Act} {k : a.Resp → Prog α} (h : ∀ r, (k r).Stoppable ok) : (Prog.act a k).Stoppable ok :=
  ⟨.act fun r _ => (h r).halts, h⟩

theorem Prog.Stoppable.forEach {f : α → Prog β} (xs : List α) (hf : ∀ x, (f x).Stoppable ok) : (Prog.forEach f xs).Stoppable ok := by
  induction xs with
  | nil => trivial
  | cons x xs ih => exact (hf x).bind fun _ => ih.bind fun _ => trivial

theorem Prog.Stoppable.withRequest {fs : Fields} (r : Reader) {k : fs.den → Prog (Option Dyn)} (hk : ∀ v, (k v).Stoppable ok) :
    (withRequest fs r k).Stoppable ok := by
  unfold KM.withRequest
  split
  · trivial
  · trivial
  · refine (hk _).bind ?_
    rintro (_ | d) <;> trivial

theorem Prog.Stoppable.unroll {σ : Type} {s : σ} {body : σ → Prog (σ ⊕ β)} {k : β → Prog α} (h : (Prog.loop s body k).Stoppable ok) :
    (Prog.unroll s body k).Stoppable ok := by
  refine (h.2.1 s).bind ?_
  rintro (s' | b)
  · exact h
  · exact h.2.2 b

theorem Exec.stoppable {w w' : World} {p p' : Prog α} {tr : List Ev} (h : Exec w p tr w' p') (hp : p.Stoppable ok) : p'.Stoppable ok := by
  induction h with
  | refl => exact hp
  | env a r _ _ ih => exact ih hp
  | mine a k r _ _ ih => exact ih (hp.2 r)
  | unroll _ ih => exact ih hp.unroll

theorem Own.trans {p p1 p2 : Prog α} {l1 l2 : List REv} (h1 : Own p l1 p1) (h2 : Own p1 l2 p2) : Own p (l1 ++ l2) p2 := by
  induction h1 with
  | refl => exact h2
  | act a k r h ih => exact .act a k r (ih h2)
  | unroll h ih => exact .unroll (ih h2)

/-- A program that halts under `ok` does not act for ever with results satisfying `ok`. -/
theorem Prog.Halts.finite {p : Prog α} (hp : p.Halts ok) (ps : Nat → Prog α) (ls : Nat → List REv) (h0 : ps 0 = p)
    (h : ∀ n, Own (ps n) (ls n) (ps (n + 1)) ∧ ls n ≠ []) (hok : ∀ n, ∀ e ∈ ls n, ok e.act e.resp) : False := by
  induction hp generalizing ps ls with
  | ret v =>
    obtain ⟨h1, h2⟩ := h 0
    rw [h0] at h1
    exact h2 (own_ret_inv h1).2
  | panic =>
    obtain ⟨h1, h2⟩ := h 0
    rw [h0] at h1
    exact h2 (own_panic_inv h1).2
  | @act a k hk ih =>
    obtain ⟨h1, h2⟩ := h 0
    rw [h0] at h1
    rcases own_act_inv h1 with ⟨_, e⟩ | ⟨r, l, e, h1⟩
    · exact h2 e
    · have hr : ok a r := hok 0 ⟨a, r⟩ (by rw [e]; exact List.mem_cons_self ..)
      refine ih r hr (fun n => match n with | 0 => k r | n + 1 => ps (n + 2)) (fun n => match n with | 0 => l ++ ls 1 | n + 1 => ls (n + 2)) rfl ?_ ?_
      · rintro (_ | n)
        · exact ⟨h1.trans (h 1).1, fun e => (h 1).2 (List.append_eq_nil_iff.1 e).2⟩
        · exact h (n + 2)
      · rintro (_ | n) x hx
        · rcases List.mem_append.1 hx with hx | hx
          · exact hok 0 x (by rw [e]; exact List.mem_cons_of_mem _ hx)
          · exact hok 1 x hx
        · exact hok (n + 2) x hx
  | @loop σ γ s body k _ ih =>
    obtain ⟨h1, h2⟩ := h 0
    rw [h0] at h1
    rcases own_loop_inv h1 with ⟨_, e⟩ | h1
    · exact h2 e
    · refine ih (fun n => match n with | 0 => Prog.unroll s body k | n + 1 => ps (n + 1)) ls rfl ?_ hok
      rintro (_ | n)
      · exact ⟨h1, h2⟩
      · exact h (n + 1)

/-! ### The connection goroutine after cancellation -/

/-- The server is done, and no Fetch finds a record. -/
def doneResp : (a : Act) → a.Resp → Prop
  | .fetchRecord _ _ _, r => ∀ rec, r ≠ some (some rec)
  | .isDone, r => r = true
  | _, _ => True

theorem fetchPass_done (fds : List FetchData) : (fetchPass fds).Cost (fun _ => 0) doneResp (fun x => x.2 = false) 0 := by
  induction fds with
  | nil => exact rfl
  | cons fd rest ih =>
    have hb : ((fetchPass rest).bind fun (l, more) => .ret (fd :: l, more)).Cost (fun _ => 0) doneResp (fun x => x.2 = false) 0 :=
      ih.bind (m := 0) fun v hv => hv
    unfold fetchPass
    cases hk : fd.kp with
    | none => exact hb
    | some tp =>
      obtain ⟨t, p⟩ := tp
      refine ⟨Nat.le_refl _, fun r hr => ?_⟩
      match r with
      | none => trivial
      | some none => exact hb
      | some (some rec) => exact absurd rfl (hr rec)

theorem fetchLoop_halts (ex : Int) (st : FetchSt) {k : List FetchData → Prog α} (hk : ∀ b, (k b).Halts doneResp) :
    (Prog.loop st (fetchBody ex) k).Halts doneResp := by
  refine .loop ?_
  unfold Prog.unroll fetchBody
  rw [Prog.bind_assoc]
  refine (fetchPass_done st.fds).halts_bind ?_
  rintro ⟨fds, more⟩ hmore
  have hmore : more = false := hmore
  subst hmore
  dsimp only
  rw [if_neg (by decide)]
  split
  · exact hk _
  · refine .act fun r _ => ?_
    dsimp only
    split
    · exact hk _
    · refine .act fun r hr => ?_
      have hr : r = true := hr
      subst hr
      exact hk _

theorem fetchPass_stoppable (fds : List FetchData) : (fetchPass fds).Stoppable ok := by
  induction fds with
  | nil => trivial
  | cons fd rest ih =>
    unfold fetchPass
    cases fd.kp with
    | none => exact ih.bind fun _ => trivial
    | some tp =>
      refine .act fun r => ?_
      match r with
      | none => trivial
      | some none => exact ih.bind fun _ => trivial
      | some (some rec) => exact ih.bind fun _ => trivial

theorem fetch_stoppable (q : FetchRequest) : (fetch q).Stoppable doneResp := by
  have hk : ∀ fds, (match fetchRespond q.topics fds with
      | none => (.panic : Prog FetchResponse)
      | some rs => .ret { throttleTimeMs := 0, responses := rs }).Stoppable doneResp := by
    intro fds
    split <;> trivial
  refine Prog.Stoppable.bind ?_ fun fds => .act fun t => ⟨fun st => fetchLoop_halts _ st fun b => (hk b).halts, fun st => ?_, hk⟩
  · refine Prog.Stoppable.map _ (Prog.Stoppable.forEach _ fun t => .act fun kt => Prog.Stoppable.forEach _ fun par => ?_)
    unfold fetchSetupPartition
    dsimp only
    split
    · exact .act fun _ => trivial
    · trivial
  · refine (fetchPass_stoppable _).bind ?_
    rintro ⟨fds, more⟩
    dsimp only
    split
    · trivial
    · split
      · trivial
      · refine .act fun t => ?_
        split
        · trivial
        · refine .act fun d => ?_
          split
          · trivial
          · exact .act fun _ => trivial

theorem scanBack_stoppable (t : Bytes) (p : I32) (want : I64) (n : Nat) (ts : I64) : (scanBack t p want n ts).Stoppable ok := by
  induction n generalizing ts with
  | zero => trivial
  | succ n ih =>
    refine .act ?_
    rintro (_ | rec)
    · trivial
    · dsimp only; split
      · trivial
      · exact ih _

theorem listOffsets_stoppable (q : ListOffsetsRequest) : (listOffsets q).Stoppable ok := by
  refine Prog.Stoppable.map _ (Prog.Stoppable.forEach _ fun t => .act fun kt => Prog.Stoppable.map _ (Prog.Stoppable.forEach _ fun par => ?_))
  unfold listOffsetsPartition
  dsimp only
  split
  · refine .act fun kp => ?_
    split
    · unfold listOffsetsFound
      dsimp only
      split
      · exact .act fun _ => .act fun _ => trivial
      · split
        · refine .act fun n => ?_
          split
          · trivial
          · refine .act ?_
            rintro (_ | rec) <;> trivial
        · exact .act fun n => Prog.Stoppable.map _ (scanBack_stoppable ..)
    · trivial
  · trivial

theorem makeMemberAssignment_stoppable : makeMemberAssignment.Stoppable ok := by
  refine .act fun names => Prog.Stoppable.bind (Prog.Stoppable.forEach _ fun name => .act fun _ => trivial) ?_
  intro mpas
  split <;> trivial

theorem offsetFetch_stoppable (q : OffsetFetchRequest) : (offsetFetch q).Stoppable ok := by
  have h1 : ∀ name l data, (offsetFetchPartitions name l data).Stoppable ok := by
    intro name l
    induction l with
    | nil => intro data; trivial
    | cons pi l ih => intro data; exact .act fun _ => ih _
  have h2 : ∀ l data, (offsetFetchTopics l data).Stoppable ok := by
    intro l
    induction l with
    | nil => intro data; trivial
    | cons rt l ih =>
      intro data
      refine .act fun kt => ?_
      split
      · exact (h1 _ _ _).bind fun _ => ih _
      · exact ih _
  refine (h2 _ _).bind fun data => .act fun names =>
    Prog.Stoppable.map _ (Prog.Stoppable.forEach _ fun name => Prog.Stoppable.map _ (Prog.Stoppable.forEach _ fun kp => ?_))
  exact .act fun _ => .act fun _ => trivial

theorem offsetCommit_stoppable (q : CommitRequest) : (offsetCommit q).Stoppable ok := by
  refine Prog.Stoppable.map _ (Prog.Stoppable.forEach _ fun t => .act fun kt => Prog.Stoppable.map _ (Prog.Stoppable.forEach _ fun par => ?_))
  unfold commitPartition
  split
  · refine .act fun kp => ?_
    split
    · exact .act fun _ => trivial
    · trivial
  · trivial

theorem handler_stoppable_other (sv : Server) (api : Api) (h : api ≠ .fetch) (r : Reader) : (api.handler sv r).Stoppable ok := by
  cases api
  case offsetFetch => exact Prog.Stoppable.withRequest _ fun _ => (offsetFetch_stoppable _).map _
  case offsetCommit => exact Prog.Stoppable.withRequest _ fun _ => (offsetCommit_stoppable _).map _
  case metadata => exact Prog.Stoppable.withRequest _ fun _ => trivial
  case findCoordinator => exact Prog.Stoppable.withRequest _ fun _ => trivial
  case joinGroup => exact Prog.Stoppable.withRequest _ fun _ => trivial
  case syncGroup =>
    refine Prog.Stoppable.withRequest _ fun v => ?_
    dsimp only
    split
    · trivial
    · exact makeMemberAssignment_stoppable.map _
  case leaveGroup => exact Prog.Stoppable.withRequest _ fun _ => trivial
  case apiVersions => exact .act fun _ => trivial
  case heartbeat => exact Prog.Stoppable.withRequest _ fun _ => trivial
  case listOffsets => exact Prog.Stoppable.withRequest _ fun _ => (listOffsets_stoppable _).map _
  case fetch => exact absurd rfl h

theorem handler_stoppable (sv : Server) (api : Api) (r : Reader) : (api.handler sv r).Stoppable doneResp := by
  by_cases h : api = .fetch
  · subst h; exact Prog.Stoppable.withRequest _ fun _ => (fetch_stoppable _).map _
  · exact handler_stoppable_other sv api h r

theorem send_stoppable (c : I32) (b : Bytes) : (send c b).Stoppable ok := by
  have hf : sendFailed.Stoppable ok := .act fun _ => trivial
  refine .act fun ok1 => ?_
  split
  · refine .act fun ok2 => ?_
    split
    · refine .act fun ok3 => ?_
      split
      · trivial
      · exact hf
    · exact hf
  · exact hf

theorem finish_stoppable (n : Nat) (c : I32) (h : HRes) : (finish n c h).Stoppable ok := by
  unfold finish
  split
  · trivial
  · split
    · trivial
    · split
      · trivial
      · exact send_stoppable ..

theorem dispatcher_stoppable (sv : Server) (r : Reader) (n : Nat) : (dispatcher sv r n).Stoppable doneResp := by
  unfold dispatcher
  split
  · trivial
  · trivial
  · dsimp only
    split
    · trivial
    · trivial
    · split
      · trivial
      · exact (handler_stoppable sv _ _).bind fun h => finish_stoppable ..

theorem ready_nonempty {inb m : Bytes} (h : getMessage inb = .ready m) : inb ≠ [] := by
  rintro rfl; cases h

theorem handle_halts (sv : Server) (inb : Bytes) : (Prog.loop inb (handleBody sv) .ret).Halts doneResp := by
  generalize hn : inb.length = n
  induction n using Nat.strongRecOn generalizing inb with
  | ind n ih =>
    refine .loop ?_
    unfold Prog.unroll handleBody
    cases hg : getMessage inb with
    | panic => exact .panic
    | none =>
      refine .act fun d hd => ?_
      have hd : d = true := hd
      subst hd
      exact .act fun _ _ => .ret _
    | ready m =>
      refine .act fun _ _ => ?_
      dsimp only
      rw [Prog.bind_assoc]
      refine (dispatcher_stoppable sv _ _).halts.bind fun res => .act fun _ _ => ?_
      cases res with
      | err => exact .panic
      | done =>
        refine ih _ ?_ _ rfl
        have := List.length_pos_iff.2 (ready_nonempty hg)
        rw [List.length_drop]; omega

theorem handle_stoppable (sv : Server) : (handle sv).Stoppable doneResp := by
  refine ⟨handle_halts sv, fun inb => ?_, fun _ => trivial⟩
  unfold handleBody
  split
  · trivial
  · refine .act fun d => ?_
    split
    · exact .act fun _ => trivial
    · refine .act ?_
      rintro (b | _ | _ | _)
      · exact .act fun _ => trivial
      · trivial
      · trivial
      · trivial
  · refine .act fun _ => (dispatcher_stoppable sv _ _).bind fun res => .act fun _ => ?_
    cases res <;> trivial

end KM
