import Verif.System
import Verif.Conn
/-
A request in a run of the whole mock: between the moments at which a connection takes up a request and lays it down, it executes
`dispatcher` on that request.
-/
namespace KM

theorem dispatcher_onlyInner (sv : Server) (r : Reader) (n : Nat) : (dispatcher sv r n).Only Inner := by
  unfold dispatcher
  split
  · trivial
  · trivial
  · dsimp only
    split
    · trivial
    · trivial
    · split
      · trivial
      · refine ((handler_socket sv _ _).mono fun a h => inner_of_socket h).bind fun h => ?_
        unfold finish
        split
        · trivial
        · split
          · trivial
          · split
            · trivial
            · exact send_inner ..

/-- A connection that is about to take up request `m` will run the dispatcher on it, then lay it down, and panic if the dispatcher has returned an error. -/
theorem handle_reqBegin_err {sv : Server} {w w' : World} {tr : List Ev} {m : Bytes} {f : Unit → Prog Unit}
    (h : Exec w (handle sv) tr w' (.act (.reqBegin m) f)) :
    ∃ G : DRes → Prog Unit, (∀ res, ∃ g, G res = .act .reqEnd g ∧ (res = .err → g () = .panic)) ∧ f () = (dispatcher sv ⟨m⟩ m.length).bind G := by
  obtain ⟨n, t1, w1, inb, t2, _, _, h2⟩ := exec_loop_inv h
  rcases h2 with ⟨h3, _⟩ | ⟨x, h3, h4⟩ | ⟨b, t3, t4, w2, _, _, h5⟩
  · cases h3
  · have key : ∃ f' : Unit → Prog (Bytes ⊕ Unit), x = .act (.reqBegin m) f' ∧ ∀ u, f u = (f' u).bind (Prog.next (handleBody sv) .ret) := by
      cases x with
      | act a k => simp only [Prog.bind_act] at h4; cases h4; exact ⟨k, rfl, fun _ => rfl⟩
      | ret v => cases v <;> cases h4
      | panic => cases h4
      | loop => cases h4
    obtain ⟨f', rfl, hf⟩ := key
    unfold handleBody at h3
    split at h3
    · obtain ⟨h5, _⟩ := exec_panic_inv h3; cases h5
    · have : (Prog.act (.reqBegin m) f').Only fun a => a ≠ .reqBegin m := by
        refine (h3.only ?_).1
        refine ⟨nofun, fun d => ?_⟩
        dsimp only
        split
        · exact ⟨nofun, fun _ => trivial⟩
        · refine ⟨nofun, ?_⟩
          rintro (b | _ | _ | _)
          · exact ⟨nofun, fun _ => trivial⟩
          · trivial
          · trivial
          · trivial
      exact absurd rfl this.1
    · next msg hm =>
      rcases exec_act_inv h3 with ⟨h5, _⟩ | ⟨t3, r, w2, w3, t4, _, _, h5, _⟩
      · cases h5
        refine ⟨fun res => (Prog.act .reqEnd fun _ => match res with
          | .err => .panic
          | .done => .ret (.inl (inb.drop (4 + m.length)))).bind (Prog.next (handleBody sv) .ret), fun res => ⟨_, rfl, fun e => by subst e; rfl⟩, ?_⟩
        rw [hf, Prog.bind_assoc]; rfl
      · have : (Prog.act (.reqBegin m) f').Only fun a => a ≠ .reqBegin m := by
          refine (h5.only ((dispatcher_onlyInner sv _ _).mono (fun a ha e => by rw [e] at ha; exact ha) |>.bind fun res => ⟨nofun, fun _ => ?_⟩)).1
          cases res <;> trivial
        exact absurd rfl this.1
  · cases (exec_ret_inv h5).1

/-- A connection that is about to take up request `m` will run the dispatcher on it, then lay it down. -/
theorem handle_reqBegin {sv : Server} {w w' : World} {tr : List Ev} {m : Bytes} {f : Unit → Prog Unit}
    (h : Exec w (handle sv) tr w' (.act (.reqBegin m) f)) :
    ∃ G : DRes → Prog Unit, (∀ res, ∃ g, G res = .act .reqEnd g) ∧ f () = (dispatcher sv ⟨m⟩ m.length).bind G := by
  obtain ⟨G, hG, hf⟩ := handle_reqBegin_err h
  exact ⟨G, fun res => ⟨_, (hG res).choose_spec.1⟩, hf⟩

/-- A run of the mock with its beginning, in which connection `c` takes up request `m` in state `s1`, and is about to lay it down in state `s2`. -/
structure Serves (sv : Server) (clock : Int) (c : Nat) (m : Bytes) (t1 : List SEv) (s1 : Sys) (tr : List SEv) (s2 : Sys) : Prop where
  begins : ∃ s0, Sys.Run (Sys.new sv clock) t1 s0 ∧ Sys.Step s0 (.conn c (.reqBegin m) ()) s1
  during : Sys.Run s1 tr s2
  ends : ∃ s3, Sys.Step s2 (.conn c .reqEnd ()) s3
  once : SEv.conn c .reqEnd () ∉ tr

theorem Serves.dispatches {sv : Server} {clock : Int} {c : Nat} {m : Bytes} {t1 tr : List SEv} {s1 s2 : Sys} (h : Serves sv clock c m t1 s1 tr s2) :
    ∃ (ctx : Nat) (es : List Ev) (res : DRes), Exec (s1.view ctx) (dispatcher sv ⟨m⟩ m.length) es (s2.view ctx) (.ret res) ∧
      own es = actsOf c tr ∧ effects es = effectsOf tr := by
  obtain ⟨s0, h0, hb⟩ := h.begins
  obtain ⟨s3, he⟩ := h.ends
  cases hb with
  | @conn _ k _ f _ w hc hp ha =>
  obtain ⟨w0, w0', e1, e2, p2, h2, _⟩ := h0.connection_at (.nil _) hc hp
  obtain ⟨G, hG, hf⟩ := handle_reqBegin h2
  have hlt : c < s0.conns.length := by
    rcases Nat.lt_or_ge c s0.conns.length with h | h
    · exact h
    · rw [List.getElem?_eq_none h] at hc; cases hc
  have hk1 : ((s0.setView k.ctx w).setConn c { k with pc := .body (f ()) }).conns[c]? = some { k with pc := .body (f ()) } := by
    simp [Sys.setConn, Sys.setView, hlt]
  obtain ⟨k2, hk2, _, _, hctx, h3⟩ := h.during.project hk1 rfl
  cases he with
  | @conn _ k3 _ f3 _ w3 hc3 hp3 ha3 =>
  rw [hk2] at hc3; cases hc3
  rcases h3 with ⟨p', es, hp', hx, ho, hef⟩ | ⟨h4, _⟩
  · rw [hp3] at hp'; cases hp'
    refine ⟨k.ctx, ?_⟩
    have hno : (⟨.reqEnd, ()⟩ : REv) ∉ own es := by
      rw [ho]
      intro hm
      unfold actsOf at hm
      obtain ⟨e, he, h5⟩ := List.mem_filterMap.1 hm
      cases e with
      | conn c' a r =>
        simp only at h5
        split at h5
        · next e => cases h5; subst e; exact h.once he
        · cases h5
      | _ => cases h5
    rw [hf] at hx
    rcases exec_bind_inv hx with ⟨x, h5, h6⟩ | ⟨ta, tb, wm, res, h5, h6, rfl⟩
    · cases x with
      | ret res => exact ⟨es, res, h5, ho, hef⟩
      | panic => cases h6
      | act a g =>
        simp only [Prog.bind_act] at h6
        cases h6
        exact ((h5.only (dispatcher_onlyInner sv _ _)).1.1).elim
      | loop => cases h6
    · obtain ⟨g, hg⟩ := hG res
      rw [hg] at h6
      rcases exec_act_inv h6 with ⟨_, h7⟩ | ⟨t3, r, w2, w3, t4, _, _, _, h7⟩
      · refine ⟨ta ++ tb, res, ?_, ho, hef⟩
        exact h5.trans (h7.exec _)
      · exact absurd (mem_own.2 (by rw [h7]; simp)) hno
  · exact absurd hp3 (h4 _)

end KM
