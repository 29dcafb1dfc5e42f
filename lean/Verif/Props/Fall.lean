import Verif.Fall
import Verif.Props.Crash
/-
C76: a panic in the mock ends the process.
-/
namespace KM.Props
open Spec

variable {sv : Server} {clock : Int} {ss : Nat → Fall} {es : Nat → FallEv}

/-- **C76**, connections: a connection whose handler has come to a panic ends the process, whatever the other goroutines and the clients do. (A run that "goes on
for ever" goes on past that moment in the model.) -/
theorem C76_connection (h : FallEndless sv clock ss es) {n c : Nat} {k : ConnG} (hc : (ss n).sys.conns[c]? = some k) (hp : k.pc = .body .panic) :
    ∃ m, n ≤ m ∧ .conn c ∈ (ss m).dying ∧ (ss m).over := by
  obtain ⟨m, m1, m2, m3⟩ := h.first_act (.conn c) n fun hno m hm => ⟨m, Nat.le_refl _, k, h.conn_stays hm hc fun j h1 _ => hno j h1, by rw [hp]; trivial⟩
  have e := h.conn_stays m1 hc m3
  cases fall_conn_self (h.step m) m2 e with
  | sys hs he =>
    obtain ⟨k0, a1, a2⟩ := step_conn_self hs he
    rw [e] at a1; cases a1
    cases a2 with
    | act hp' => rw [hp] at hp'; cases hp'
    | loop hp' => rw [hp] at hp'; cases hp'
    | ret hp' => rw [hp] at hp'; cases hp'
    | oc hp' => rw [hp] at hp'; cases hp'
  | panic _ hk hd =>
    obtain ⟨m', b1, b2⟩ := h.oc_ends hk rfl
    have hd := h.dying b1 hd
    exact ⟨m', by omega, hd, _, hd, _, b2, rfl⟩

/-- **C76**, accept loops: an accept loop that has panicked ends the process, if the clients connected at the time all go away (or their connections end otherwise).
Missing for the full statement: a client that stays (`C76_false`). -/
theorem C76_partial (h : FallEndless sv clock ss es) {n : Nat} {t : Goroutine} (ht : t ∈ (ss n).dying)
    (hend : ∀ g, t = .run g → ∀ c k, (ss n).sys.conns[c]? = some k → ∃ m, n ≤ m ∧ (ss m).sys.over (.conn c)) : ∃ m, n ≤ m ∧ (ss m).over := by
  have hf := (h.whole n).2
  cases t with
  | api i => exact absurd ht (hf.2.2 i)
  | conn c =>
    obtain ⟨k, hk, ⟨o, hp⟩ | hp⟩ := hf.1 c ht
    · obtain ⟨m, b1, b2⟩ := h.oc_ends hk hp
      exact ⟨m, b1, _, h.dying b1 ht, _, b2, rfl⟩
    · exact ⟨n, Nat.le_refl _, _, ht, k, hk, hp⟩
  | run g =>
    replace hend := hend g rfl
    obtain ⟨r, hr, hp⟩ := hf.2.1 g ht
    suffices hs : ∀ x n (r : RunG), r.pc.rank = x → .run g ∈ (ss n).dying → (ss n).sys.runs[g]? = some r → r.pc ∈ [.waitActive, .storeStarted, .wgDone, .ended] →
        (r.pc = .waitActive → ∀ c k, (ss n).sys.conns[c]? = some k → ∃ m, n ≤ m ∧ (ss m).sys.over (.conn c)) → ∃ m, n ≤ m ∧ (ss m).over from
      hs _ n r rfl ht hr hp fun _ => hend
    clear hend hp hr r ht hf n
    intro x
    induction x using Nat.strongRecOn with
    | ind x ih =>
      intro n r hx ht hr hp hend
      by_cases he : r.pc = .ended
      · exact ⟨n, Nat.le_refl _, _, ht, r, hr, he⟩
      obtain ⟨m, m1, m2, m3⟩ := h.first_act (.run g) n fun hno m hm => by
        have stays : ∀ m, n ≤ m → (ss m).sys.runs[g]? = some r := fun m hm => h.run_stays hm hr fun j h1 _ => hno j h1
        by_cases hw : r.pc = .waitActive
        · obtain ⟨M, h1, h2⟩ := h.active_zero hr hw (hend hw) hno
          refine ⟨max m M, Nat.le_max_left .., r, stays _ (by omega), ?_⟩
          rw [hw]; exact h2 _ (Nat.le_max_right ..)
        · refine ⟨m, Nat.le_refl _, r, stays m hm, ?_⟩
          revert hp he hw
          generalize r.pc = pc
          intro hp he hw
          cases pc <;> first | exact absurd rfl he | exact absurd rfl hw | trivial
      have e := h.run_stays m1 hr m3
      rcases fall_run_self (h.step m) m2 e with ⟨e', hs, he'⟩ | hp'
      · obtain ⟨r0, r', a1, ⟨a2, _⟩, a3, _⟩ := step_run_self hs he'
        rw [e] at a1; cases a1
        have key : r'.pc.rank < r.pc.rank ∧ r'.pc ∈ [.storeStarted, .wgDone, .ended] := by
          revert hp a2
          generalize r.pc = pc
          generalize r'.pc = pc'
          intro hp a2
          cases pc <;> simp [RunPc.next] at hp a2 <;> subst a2 <;> exact ⟨by decide, by simp⟩
        obtain ⟨m', b1, b2⟩ := ih _ (by omega) (m + 1) r' rfl (h.dying (by omega) ht) a3 (List.mem_cons_of_mem _ key.2) fun hw => by
          have := key.2; rw [hw] at this; simp at this
        exact ⟨m', by omega, b2⟩
      · rw [hp'] at hp; simp at hp

/-! ### Schedules with panics -/

inductive FPick where
  | sys (p : Pick)
  /-- the handler of connection `c`, come to a panic, starts its deferred functions -/
  | fails (c : Nat)
  /-- Accept fails -/
  | refused (g : Nat)

def _root_.KM.Fall.pick (F : Fall) : FPick → Option (FallEv × Fall)
  | .sys p => (F.sys.pick p).map fun x => (.sys x.1, ⟨x.2, F.dying⟩)
  | .fails c =>
    match F.sys.conns[c]? with
    | none => none
    | some k => match k.pc with
      | .body .panic => some (.panic (.conn c), ⟨F.sys.setConn c { k with pc := .oc .lock }, .conn c :: F.dying⟩)
      | _ => none
  | .refused g =>
    match F.sys.runs[g]? with
    | none => none
    | some r => if r.pc = .accept ∧ g ∉ F.sys.closes then some (.panic (.run g), ⟨F.sys.setRun g { r with pc := .waitActive }, .run g :: F.dying⟩) else none

theorem fpick_sound {F F' : Fall} {p : FPick} {e : FallEv} (h : F.pick p = some (e, F')) : Fall.Step F e F' := by
  cases p with
  | sys p =>
    unfold Fall.pick at h
    dsimp only at h
    cases hq : F.sys.pick p with
    | none => rw [hq] at h; cases h
    | some x => rw [hq] at h; cases h; exact .sys (Sys.pick_sound hq)
  | fails c =>
    unfold Fall.pick at h
    dsimp only at h
    split at h
    · cases h
    next k hk =>
    split at h
    · next hp => cases h; exact .conn hk hp
    · cases h
  | refused g =>
    unfold Fall.pick at h
    dsimp only at h
    split at h
    · cases h
    next r hr =>
    split at h
    · next hp => cases h; exact .accept hr hp.1 hp.2
    · cases h

def _root_.KM.Fall.play : (ps : List FPick) → Fall → Option (List FallEv × Fall)
  | [], F => some ([], F)
  | p :: ps, F =>
    match F.pick p with
    | none => none
    | some (e, F1) =>
      match play ps F1 with
      | none => none
      | some (es, F2) => some (e :: es, F2)

theorem fplay_sound {ps : List FPick} {F F' : Fall} {tr : List FallEv} (h : Fall.play ps F = some (tr, F')) : Fall.Run F tr F' := by
  induction ps generalizing F tr with
  | nil => cases h; exact .nil _
  | cons p ps ih =>
    unfold Fall.play at h
    split at h
    · cases h
    next e F1 h1 =>
    split at h
    · cases h
    next es F2 h2 =>
    cases h
    exact .cons (fpick_sound h1) (ih h2)

def fallAfter (ps : List FPick) (F : Fall := Fall.new ⟨9092, []⟩ 0) : Fall := ((Fall.play ps F).map Prod.snd).getD F
def fallEvents (ps : List FPick) (F : Fall := Fall.new ⟨9092, []⟩ 0) : List FallEv := ((Fall.play ps F).map Prod.fst).getD []

theorem fallAfter_run (ps : List FPick) (F : Fall := Fall.new ⟨9092, []⟩ 0) : Fall.Run F (fallEvents ps F) (fallAfter ps F) := by
  unfold fallEvents fallAfter
  cases h : Fall.play ps F with
  | none => exact .nil _
  | some x => exact fplay_sound h

/-! ### A process that goes on after a panic -/

theorem fprepend {F0 F1 : Fall} {tr : List FallEv} (hr : Fall.Run F0 tr F1) (ts : Nat → Fall) (fs : Nat → FallEv) (h0 : ts 0 = F1) (hs : ∀ n, Fall.Step (ts n) (fs n) (ts (n + 1))) :
    ∃ (ss : Nat → Fall) (es : Nat → FallEv), ss 0 = F0 ∧ (∀ n, Fall.Step (ss n) (es n) (ss (n + 1))) ∧ (∀ n, ss (tr.length + n) = ts n) ∧ ∀ n, es (tr.length + n) = fs n := by
  induction hr with
  | nil => exact ⟨ts, fs, h0, hs, fun n => by rw [List.length_nil, Nat.zero_add], fun n => by rw [List.length_nil, Nat.zero_add]⟩
  | @cons F F1 F2 e tr h hr ih =>
    obtain ⟨ss, es, a, b, c, d⟩ := ih h0
    refine ⟨fun n => Nat.casesOn n F ss, fun n => Nat.casesOn n e es, rfl, fun n => ?_, fun n => ?_, fun n => ?_⟩
    · cases n with
      | zero => show Fall.Step F e (ss 0); rw [a]; exact h
      | succ n => exact b n
    · rw [List.length_cons, Nat.add_right_comm]; exact c n
    · rw [List.length_cons, Nat.add_right_comm]; exact d n

/-- A client is connected when Accept fails. -/
def outlived : List FPick := (starts 0 ++ opens 0 ++ accepts 0).map .sys ++ [.refused 0]

/-- The client says nothing: its connection looks at the context, and its read times out. -/
def silence : List FPick := [.sys (.conn 0), .sys (.conn 0), .sys (.recv 0 .timeout)]

set_option maxRecDepth 100000 in
/-- Against the full statement: after Accept has failed the process never ends, as long as the client stays connected. -/
theorem C76_false : ∃ (ss : Nat → Fall) (es : Nat → FallEv), FallEndless ⟨9092, []⟩ 0 ss es ∧ ∃ N, ∀ n, N ≤ n → (ss n).dying = [.run 0] ∧ ¬ (ss n).over := by
  let A := fallAfter outlived
  let B := fallAfter (outlived ++ silence.take 1)
  let C := fallAfter (outlived ++ silence.take 2)
  have hA : A.sys.runs = [⟨.waitActive, 1⟩] ∧ A.sys.conns.length = 1 ∧ A.sys.active = 1 ∧ A.dying = [.run 0] ∧ ∀ i, A.sys.api i = .idle := ⟨rfl, rfl, rfl, rfl, fun i => by cases i <;> rfl⟩
  have hB : B.sys.runs = [⟨.waitActive, 1⟩] ∧ B.sys.conns.length = 1 ∧ B.sys.active = 1 ∧ B.dying = [.run 0] ∧ B.sys.api = A.sys.api := ⟨rfl, rfl, rfl, rfl, rfl⟩
  have hC : C.sys.runs = [⟨.waitActive, 1⟩] ∧ C.sys.conns.length = 1 ∧ C.sys.active = 1 ∧ C.dying = [.run 0] ∧ C.sys.api = A.sys.api := ⟨rfl, rfl, rfl, rfl, rfl⟩
  have sA : Fall.Step A (.sys (.unroll 0)) B := fpick_sound (p := .sys (.conn 0)) rfl
  have sB : Fall.Step B (.sys (.conn 0 .isDone false)) C := fpick_sound (p := .sys (.conn 0)) rfl
  have sC : Fall.Step C (.sys (.conn 0 .recv .timeout)) A := fpick_sound (p := .sys (.recv 0 .timeout)) rfl
  let ts : Nat → Fall := fun n => if n % 3 = 0 then A else if n % 3 = 1 then B else C
  let fs : Nat → FallEv := fun n => if n % 3 = 0 then .sys (.unroll 0) else if n % 3 = 1 then .sys (.conn 0 .isDone false) else .sys (.conn 0 .recv .timeout)
  have hs : ∀ n, Fall.Step (ts n) (fs n) (ts (n + 1)) := by
    intro n
    have : n % 3 = 0 ∨ n % 3 = 1 ∨ n % 3 = 2 := by omega
    rcases this with e | e | e
    · have e1 : (n + 1) % 3 = 1 := by omega
      simp only [ts, fs, e, e1]; exact sA
    · have e1 : (n + 1) % 3 = 2 := by omega
      simp only [ts, fs, e, e1]; exact sB
    · have e1 : (n + 1) % 3 = 0 := by omega
      simp only [ts, fs, e, e1]; exact sC
  have hts : ∀ n, (ts n).sys.runs = [⟨.waitActive, 1⟩] ∧ (ts n).sys.conns.length = 1 ∧ (ts n).sys.active = 1 ∧ (ts n).dying = [.run 0] ∧ ∀ i, (ts n).sys.api i = .idle := by
    intro n
    have : ts n = A ∨ ts n = B ∨ ts n = C := by
      simp only [ts]; split
      · exact .inl rfl
      · split
        · exact .inr (.inl rfl)
        · exact .inr (.inr rfl)
    rcases this with e | e | e <;> rw [e]
    · exact hA
    · exact ⟨hB.1, hB.2.1, hB.2.2.1, hB.2.2.2.1, by rw [hB.2.2.2.2]; exact hA.2.2.2.2⟩
    · exact ⟨hC.1, hC.2.1, hC.2.2.1, hC.2.2.2.1, by rw [hC.2.2.2.2]; exact hA.2.2.2.2⟩
  have hfs : ∀ n, (fs n).of = some (.conn 0) := by
    intro n
    simp only [fs]; split
    · rfl
    · split <;> rfl
  obtain ⟨ss, es, s1, s2, s3, s4⟩ := fprepend (fallAfter_run outlived) ts fs rfl hs
  generalize (fallEvents outlived).length = N at s3 s4
  have tail : ∀ n, N ≤ n → ∃ m, ss n = ts m ∧ es n = fs m := fun n hn => ⟨n - N, by rw [← s3, Nat.add_sub_cancel' hn], by rw [← s4, Nat.add_sub_cancel' hn]⟩
  refine ⟨ss, es, ⟨s1, s2, fun t ht n => ?_⟩, N, fun n hn => ?_⟩
  · obtain ⟨m, h1, h2⟩ := ht (max n N)
    have := Nat.le_max_left n N
    have := Nat.le_max_right n N
    obtain ⟨m', e1, e2⟩ := tail m (by omega)
    obtain ⟨i1, i2, i3, i4, i5⟩ := hts m'
    rw [e1] at h2
    cases t with
    | api i =>
      exfalso
      have h2 : ((ts m').sys.api i).ready _ := h2
      rw [i5] at h2; exact h2
    | run g =>
      exfalso
      obtain ⟨r, a, b⟩ := h2
      rw [i1] at a
      cases g with
      | zero =>
        cases a
        have b : (ts m').sys.active = 0 := b
        omega
      | succ g => cases a
    | conn c =>
      obtain ⟨kc, a, b⟩ := h2
      have hc : c = 0 := by
        have := (List.getElem?_eq_some_iff.1 a).1
        omega
      subst hc
      exact ⟨m, by omega, by rw [e2]; exact hfs _⟩
  · obtain ⟨m', e1, _⟩ := tail n hn
    obtain ⟨i1, _, _, i4, _⟩ := hts m'
    rw [e1]
    refine ⟨i4, ?_⟩
    rintro ⟨t, h1, h2⟩
    rw [i4] at h1
    cases List.mem_singleton.1 h1
    obtain ⟨r, a, b⟩ := h2
    rw [i1] at a
    cases a; cases b

/-- Until then the client is served: here it gets the answer to its request for the versions served. -/
def askVersions : Bytes := [0, 0, 0, 10, 0, 18, 0, 0, 0, 0, 0, 7, 255, 255]

def _root_.KM.FallEv.acts (c : Nat) : FallEv → List REv
  | .sys e => actsOf c [e]
  | .panic _ => []

def answering : List FPick := ([Pick.conn 0, .conn 0, .recv 0 (.data askVersions)] ++ List.replicate 7 (Pick.conn 0)).map .sys

set_option maxRecDepth 100000 in
theorem C76_serves : ∃ tr tr' F, Fall.Run (Fall.new ⟨9092, []⟩ 0) (tr ++ .panic (.run 0) :: tr') F ∧ ¬ F.over ∧ received (tr'.flatMap (·.acts 0)) = askVersions ∧
    sent (tr'.flatMap (·.acts 0)) = [0, 0, 0, 10, 0, 0, 0, 7, 0, 0, 0, 0, 0, 0] := by
  have h := (fallAfter_run (outlived.take 20)).append (.cons (fpick_sound (F' := fallAfter outlived) (p := .refused 0) rfl) (fallAfter_run answering (fallAfter outlived)))
  refine ⟨_, _, _, h, ?_, by decide +kernel, by decide +kernel⟩
  rintro ⟨t, h1, h2⟩
  rw [show (fallAfter answering (fallAfter outlived)).dying = [.run 0] by decide +kernel] at h1
  cases List.mem_singleton.1 h1
  obtain ⟨r, a, b⟩ := h2
  rw [show (fallAfter answering (fallAfter outlived)).sys.runs = [⟨.waitActive, 1⟩] by decide +kernel] at a
  cases a; cases b

/-- A client's request makes its connection panic, while a test is waiting for the mock to stop. -/
def returning : List FPick :=
  (starts 0 ++ opens 0 ++ accepts 0 ++ [Pick.conn 0, .conn 0, .recv 0 (.data ([0, 0, 0, 17] ++ apiVersions3)), .conn 0, .conn 0, .conn 0, .conn 0] ++ caller 0 .requestStop 8 ++ [Pick.run 0] ++
    caller 0 .waitForTermination 2).map .sys ++
  [.fails 0, .sys (.conn 0), .sys (.conn 0), .sys (.conn 0), .sys (.run 0), .sys (.run 0), .sys (.run 0), .sys (.conn 0), .sys (.api 0 .waitForTermination),
    .sys (.api 0 .waitForTermination)]

set_option maxRecDepth 100000 in
/-- WaitForTermination can return before the process ends: the test goes on for a moment after the mock has "stopped", and is then ended by its panic. -/
theorem C76_returns : ∃ tr F F', Fall.Run (Fall.new ⟨9092, []⟩ 0) tr F ∧ Fall.Step F (.sys (.life (.api 0 .waitForTermination))) F' ∧ F.sys.api 0 = .stop .swap .wait ∧
    F'.sys.api 0 = .idle ∧ F'.dying = [.conn 0] ∧ ¬ F'.over := by
  refine ⟨_, _, fallAfter returning, fallAfter_run (returning.take 47), fpick_sound (p := .sys (.api 0 .waitForTermination)) rfl, rfl, rfl, rfl, ?_⟩
  rintro ⟨t, h1, h2⟩
  rw [show (fallAfter returning).dying = [.conn 0] from rfl] at h1
  cases List.mem_singleton.1 h1
  obtain ⟨r, a, b⟩ := h2
  cases a; cases b

end KM.Props
