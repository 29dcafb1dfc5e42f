import Verif.Props.TestEnds
import Verif.Props.DeliveredCases
import Verif.Props.ModestCases
/-
C118: a test that meets the hypotheses.
-/
namespace KM.Props
open KM KM.Spec

/-- A test starts the mock and posts a record; a client connects, asks for the record and receives the response; then the test stops the mock and waits for it. -/
def tested : List NPick := (starts 0 ++ opens 0).map .mock ++ [.send 0 []] ++ (accepts 0 ++ caller 0 postOne 6).map .mock ++
  [.send 0 (frame askFetch 7), .mock (.conn 0), .mock (.conn 0), .mock (.recv 0 (.data (frame askFetch 7)))] ++
  List.replicate 14 (.mock (.conn 0)) ++ [.receive 0 30, .receive 0 1000] ++ (caller 0 .requestStop 8 ++ managedEnd ++ caller 0 .waitForTermination 3).map .mock

set_option maxRecDepth 100000 in
theorem tested_plays : (Net.play tested (Net.new ⟨9092, []⟩ 0)).isSome = true := by decide +kernel

def testedRun : NetTimeline ⟨9092, []⟩ 0 := netCourse tested tested_plays

def isIdle : ApiPc → Bool
  | .idle => true
  | _ => false

def isTelling : Call → Bool
  | .finishRequests | .requestStop | .waitForTermination | .restart => true
  | _ => false

/-- What is checked of a step. -/
def testedOk (s : Sys) : NEv → Bool
  | .mock (.conn _ .recv .closed) => false
  | .mock (.conn _ (.write _) ok) => ok
  | .mock (.conn _ (.reqBegin m) _) => match fetchAsked m with
    | some q => decide (Room (s.view 0) q)
    | none => true
  | .mock (.life .parentCancel) => false
  | _ => true

def modestB (w : World) : Bool := (w.ds.all fun x => x.2.all fun y => decide ((y.2.records.map wireSize).sum < 2 ^ 24)) && decide (assignmentBytes w < 2 ^ 32 - 20)

set_option maxRecDepth 100000 in
theorem tested_ok : ((List.range 71).all fun n => testedOk (testedRun.st 71).sys (testedRun.ev n)) = true := by decide +kernel

set_option maxRecDepth 100000 in
theorem tested_solo : ((List.range 71).all fun n => solo (inMock (testedRun.ev n))) = true := by decide +kernel

set_option maxRecDepth 100000 in
theorem tested_modest : ((List.range 72).all fun n => modestB ((testedRun.st n).sys.view 0)) = true := by decide +kernel

set_option maxRecDepth 100000 in
theorem tested_patient : ((List.range 47).all fun n => match testedRun.ev n with | .mock (.life (.api 0 c)) => !isTelling c | _ => true) = true := by decide +kernel

set_option maxRecDepth 100000 in
theorem tested_counts : (frames (got 0 (upTo testedRun.ev 47))).length = 1 ∧ (frames (asked 0 (upTo testedRun.ev 47))).length = 1 := by constructor <;> decide +kernel

set_option maxRecDepth 100000 in
theorem tested_manager : (isIdle ((testedRun.st 47).sys.api 0) && ((List.range 7).all fun n => !isIdle ((testedRun.st (48 + n)).sys.api 0)) &&
    (List.range 14).all fun n => isIdle ((testedRun.st (55 + n)).sys.api 0)) = true := by decide +kernel

set_option maxRecDepth 100000 in
theorem tested_calls : testedRun.ev 47 = .mock (.life (.api 0 .requestStop)) ∧ testedRun.ev 68 = .mock (.life (.api 0 .waitForTermination)) := ⟨rfl, rfl⟩

set_option maxRecDepth 100000 in
theorem tested_rests : (atRest (testedRun.st 71).sys && decide ((testedRun.st 71).sys.conns.length = 1) && decide (((testedRun.st 71).links 0).up = [])) = true := by decide +kernel

/-- The run, without end. -/
theorem tested_endless : ∃ (ns : Nat → Net) (es : Nat → NEv), Test ⟨9092, []⟩ 0 0 [0] (fun _ => 1) ns es ∧ KM.Roomy (sysOf ns) (evOf es) ∧ (∀ n, Modest ⟨9092, []⟩ ((ns n).sys.view 0)) ∧
    (∀ n, n ≤ 71 → ns n = testedRun.st n) ∧ (∀ n, n < 71 → es n = testedRun.ev n) ∧ ∀ n, 71 ≤ n → es n = .mock (.tick 1) := by
  have hok := tested_ok
  have hmod := tested_modest
  have hone := tested_solo
  have hpat := tested_patient
  have hcnt := tested_counts
  have hman := tested_manager
  have hcalls := tested_calls
  have hrest := tested_rests
  have hlast := fun n (hn : n < 71) => testedRun.step n hn
  have hfirst := testedRun.start
  generalize testedRun.st = st at *
  generalize testedRun.ev = ev at *
  generalize hA : st 71 = A at *
  let later : Nat → Net := fun n => { A with sys := { A.sys with clock := A.sys.clock + (n : Int) } }
  let ns : Nat → Net := fun n => if n < 71 then st n else later (n - 71)
  let es : Nat → NEv := fun n => if n < 71 then ev n else .mock (.tick 1)
  have lo : ∀ n, n < 71 → ns n = st n ∧ es n = ev n := fun n hn => ⟨if_pos hn, if_pos hn⟩
  have hi : ∀ n, 71 ≤ n → ns n = later (n - 71) ∧ es n = .mock (.tick 1) := fun n hn => ⟨if_neg (by omega), if_neg (by omega)⟩
  have l0 : later 0 = A := by
    show (⟨{ A.sys with clock := A.sys.clock + ((0 : Nat) : Int) }, A.links⟩ : Net) = A
    simp
  have le : ∀ n, n ≤ 71 → ns n = st n := by
    intro n hn
    by_cases h : n < 71
    · exact (lo n h).1
    · obtain rfl : n = 71 := by omega
      rw [(hi 71 (by omega)).1, hA]; exact l0
  have pre : ∀ n, n ≤ 71 → upTo es n = upTo ev n := fun n hn =>
    List.map_congr_left fun m hm => (lo m (by have := List.mem_range.1 hm; omega)).2
  have ok : ∀ n, testedOk A.sys (es n) = true := by
    intro n
    by_cases hn : n < 71
    · rw [(lo n hn).2]; exact List.all_eq_true.1 hok n (List.mem_range.2 hn)
    · rw [(hi n (by omega)).2]; rfl
  have step : ∀ n, Net.Step (ns n) (es n) (ns (n + 1)) := by
    intro n
    by_cases hn : n < 71
    · rw [(lo n hn).1, (lo n hn).2, le (n + 1) hn]
      exact hlast n hn
    · rw [(hi n (by omega)).1, (hi n (by omega)).2, (hi (n + 1) (by omega)).1, show n + 1 - 71 = n - 71 + 1 by omega]
      have := Net.Step.mock (n := later (n - 71)) (.tick (s := (later (n - 71)).sys) 1) (show Carries (.tick 1) A.links A.links from rfl)
      have e : ({ A.sys with clock := A.sys.clock + ((n - 71 : Nat) : Int) + ((1 : Nat) : Int) } : Sys) = (later (n - 71 + 1)).sys := by
        show _ = ({ A.sys with clock := A.sys.clock + ((n - 71 + 1 : Nat) : Int) } : Sys)
        rw [Int.natCast_add, Int.add_assoc]
      have e2 : later (n - 71 + 1) = ⟨{ A.sys with clock := A.sys.clock + ((n - 71 : Nat) : Int) + ((1 : Nat) : Int) }, A.links⟩ := by rw [e]
      rw [e2]
      exact this
  simp only [Bool.and_eq_true, decide_eq_true_eq] at hrest hman
  obtain ⟨⟨r1, r2⟩, r3⟩ := hrest
  obtain ⟨⟨i1, i2⟩, i3⟩ := hman
  have idle : ∀ {pc : ApiPc}, isIdle pc = true → pc = .idle := fun {pc} h => by cases pc <;> first | rfl | cases h
  unfold atRest at r1
  simp only [Bool.and_eq_true] at r1
  obtain ⟨⟨r1, r4⟩, r5⟩ := r1
  have hsolo : ∀ n, solo (evOf es n) = true := by
    intro n
    unfold evOf
    by_cases hn : n < 71
    · rw [(lo n hn).2]; exact List.all_eq_true.1 hone n (List.mem_range.2 hn)
    · rw [(hi n (by omega)).2]; rfl
  have single := fun n j => solo_idle (ss := sysOf ns) (es := evOf es) (sv := ⟨9092, []⟩) (clock := 0) (by show (ns 0).sys = _; rw [le 0 (by decide), hfirst]; rfl)
    (fun n => inMock_step (step n)) hsolo n j
  have hE : NetEndless ⟨9092, []⟩ 0 ns es := by
    refine ⟨by rw [le 0 (by decide)]; exact hfirst, step, ?_⟩
    intro t _ ht n
    exfalso
    obtain ⟨m, m1, m2⟩ := ht 71
    have hs1 := single m
    rw [(hi m m1).1] at m2
    cases t with
    | api i =>
      cases i with
      | zero =>
        have m2 : ((A.sys.api 0).ready _ : Prop) := m2
        revert m2 r1
        generalize A.sys.api 0 = pc
        intro r1 m2
        cases pc with
        | idle => exact m2
        | wait k r => cases k <;> first | exact m2 | cases r1
        | _ => cases r1
      | succ i =>
        have := hs1 i
        unfold sysOf at this
        rw [(hi m m1).1] at this
        have m2 : (((later (m - 71)).sys.api (i + 1)).ready _ : Prop) := m2
        rw [this] at m2
        cases m2
    | run g =>
      obtain ⟨r, a, b⟩ := m2
      have a : A.sys.runs[g]? = some r := a
      have := List.all_eq_true.1 r4 g (List.mem_range.2 (List.getElem?_eq_some_iff.1 a).1)
      rw [a] at this
      simp only [Bool.or_eq_true, Bool.and_eq_true, beq_iff_eq] at this
      rcases this with e | ⟨e, e'⟩
      · rw [e] at b; exact b
      · rw [e] at b
        have b : g ∈ A.sys.closes := b
        rw [List.contains_iff_mem.2 b] at e'; cases e'
    | conn c =>
      obtain ⟨r, a, b⟩ := m2
      have a : A.sys.conns[c]? = some r := a
      have := List.all_eq_true.1 r5 r (List.mem_of_getElem? a)
      revert this b; generalize r.pc = pc; intro b this
      cases pc <;> first | exact b | cases this
  have resp : ∀ n, 47 ≤ n → 1 ≤ responses es 0 n := fun n hn => by
    refine Nat.le_trans (Nat.le_of_eq ?_) (responses_mono es 0 hn)
    unfold responses
    rw [pre 47 (by decide), hcnt.1]
  have st0 : ∀ n, n ≤ 71 → (sysOf ns n).api 0 = (st n).sys.api 0 := fun n hn => by unfold sysOf; rw [le n hn]
  refine ⟨ns, es, { toNetEndless := hE, others := ?_, parent := ?_, patient := ?_, connects := ?_, asks := ?_, stays := ?_, writes := ?_, arrives := ?_, receives := ?_, stops := ?_ }, ?_, ?_, le,
    fun n hn => (lo n hn).2, fun n hn => (hi n hn).2⟩
  · intro n j hj
    obtain ⟨j, rfl⟩ : ∃ x, j = x + 1 := ⟨j - 1, by omega⟩
    have := single n j
    unfold sysOf at this
    rw [this]
    exact ⟨rfl, nofun⟩
  · intro n e
    have := ok n
    rw [e] at this; cases this
  · intro n cl hc ht c hcs
    obtain rfl : c = 0 := by simpa using hcs
    by_cases hn : n < 47
    · exfalso
      have := List.all_eq_true.1 hpat n (List.mem_range.2 hn)
      have he : es n = .mock (.life (.api 0 cl)) := by
        have := hc.2
        unfold evOf at this
        cases e : es n <;> rw [e] at this
        · exact congrArg _ this
        · cases this
        · cases this
      rw [← (lo n (by omega)).2, he] at this
      simp only [telling, List.mem_cons, List.not_mem_nil, or_false] at ht
      rcases ht with rfl | rfl | rfl | rfl <;> cases this
    · exact resp n (by omega)
  · intro c hcs
    obtain rfl : c = 0 := by simpa using hcs
    refine ⟨71, .inl ?_⟩
    rw [le 71 (by omega), hA, List.getElem?_eq_getElem (by omega)]
    nofun
  · intro c hcs
    obtain rfl : c = 0 := by simpa using hcs
    exact ⟨47, by rw [pre 47 (by decide), hcnt.2]⟩
  · intro c _ n e
    have := ok n
    rw [e] at this; cases this
  · intro c _ n b e
    have := ok n
    rw [e] at this; cases this
  · intro c hcs n _ _
    obtain rfl : c = 0 := by simpa using hcs
    exact ⟨max n 47, Nat.le_max_left .., .inr (resp _ (Nat.le_max_right ..))⟩
  · intro c hcs n _
    obtain rfl : c = 0 := by simpa using hcs
    exact ⟨max n 47, Nat.le_max_left .., .inr (resp _ (Nat.le_max_right ..))⟩
  · intro _
    refine ⟨47, ⟨by rw [st0 47 (by omega)]; exact idle i1, by unfold evOf; rw [(lo 47 (by omega)).2, hcalls.1]; rfl⟩, ?_⟩
    rintro m ⟨m1, m2, m3⟩
    have id : ∀ j, 55 ≤ j → j < 69 → (sysOf ns j).api 0 = .idle := fun j a b => by
      rw [st0 j (by omega)]
      have := List.all_eq_true.1 i3 (j - 55) (List.mem_range.2 (by omega))
      rw [show 55 + (j - 55) = j by omega] at this
      exact idle this
    have hm : m = 55 := by
      rcases Nat.lt_trichotomy m 55 with h | h | h
      · exfalso
        have := List.all_eq_true.1 i2 (m - 48) (List.mem_range.2 (by omega))
        rw [show 48 + (m - 48) = m by omega, ← st0 m (by omega), m2] at this
        cases this
      · exact h
      · exact absurd (id 55 (by omega) (by omega)) (m3 55 (by omega) h).1
    subst hm
    refine ⟨68, by omega, ⟨id 68 (by omega) (by omega), by unfold evOf; rw [(lo 68 (by omega)).2, hcalls.2]; rfl⟩, fun j a b => ?_⟩
    have := id j a (by omega)
    unfold sysOf at this
    rw [this]; rfl
  · rintro c n m q ⟨b, _, hb, _⟩ hq
    have h1 := ok b
    have hb : inMock (es b) = .conn c (.reqBegin m) () := hb
    have hb : es b = .mock (.conn c (.reqBegin m) ()) := by
      cases e : es b <;> rw [e] at hb
      · exact congrArg _ hb
      · cases hb
      · cases hb
    rw [hb] at h1
    simp only [testedOk, hq, decide_eq_true_eq] at h1
    obtain ⟨N, N1, N2⟩ : ∃ N, n ≤ N ∧ 71 ≤ N := ⟨max n 71, Nat.le_max_left .., Nat.le_max_right ..⟩
    obtain ⟨l, _, hl⟩ := hE.run_from N1
    obtain ⟨l', hl', _⟩ := hl.sys.steps 0
    refine Room.before hl' ?_
    rw [(hi N N2).1]
    exact h1
  · intro n
    have mo : ∀ m, m < 72 → Modest ⟨9092, []⟩ ((st m).sys.view 0) := fun m hm => by
      have := List.all_eq_true.1 hmod m (List.mem_range.2 hm)
      unfold modestB at this
      rw [Bool.and_eq_true, decide_eq_true_eq] at this
      exact modest_of this.1 this.2 (by decide)
    by_cases hn : n < 71
    · rw [(lo n hn).1]; exact mo n (by omega)
    · rw [(hi n (by omega)).1]
      have := mo 71 (by omega)
      rw [hA] at this
      exact ⟨this.logs, this.names, this.versions⟩


set_option maxRecDepth 100000 in
theorem tested_post : CallRun (testedRun.st 21).sys 0 firstPost.call (testedRun.mock.slice 22 26) (testedRun.st 26).sys :=
  call_in (H := testedRun.mock) 21 26 0 firstPost.call (by decide) (by decide) rfl rfl (by decide +kernel) rfl

set_option maxRecDepth 100000 in
theorem tested_asked : (frames (asked 0 (upTo testedRun.ev 26))).length = 0 ∧ (frames (asked 0 (upTo testedRun.ev 28)))[0]? = some (askFetch.message 7 (some [99])) := by
  constructor <;> decide +kernel

/-- The hypotheses of the theorems on C118: the test posts a record (steps 21 to 26), then a client sends a Fetch request (step 27). -/
example : ∃ (ns : Nat → Net) (es : Nat → NEv) (sa : Sys) (tc : List SEv), Test ⟨9092, []⟩ 0 0 [0] (fun _ => 1) ns es ∧ KM.Roomy (sysOf ns) (evOf es) ∧
    (∀ n, Modest ⟨9092, []⟩ ((ns n).sys.view 0)) ∧ CallRun sa 0 firstPost.call tc (ns 26).sys ∧ (frames (asked 0 (upTo es 26))).length ≤ 0 ∧
    (frames (asked 0 (upTo es 28)))[0]? = some (askFetch.message 7 (some [99])) ∧ Accepted askFetch 7 (some [99]) (askFetch.message 7 (some [99])) := by
  obtain ⟨ns, es, h1, h2, h3, h4, h5, _⟩ := tested_endless
  have pre : ∀ n, n ≤ 71 → upTo es n = upTo testedRun.ev n := by
    intro n hn
    exact List.map_congr_left fun m hm => h5 m (by have := List.mem_range.1 hm; omega)
  exact ⟨ns, es, _, _, h1, h2, h3, by rw [h4 26 (by decide)]; exact tested_post, by rw [pre 26 (by decide), tested_asked.1],
    by rw [pre 28 (by decide)]; exact tested_asked.2, accepted_proper askFetch_wf _ (by intro x hx; cases hx; unfold ShortStr; decide)⟩

end KM.Props
