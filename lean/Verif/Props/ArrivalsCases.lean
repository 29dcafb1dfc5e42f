import Verif.Props.Arrivals
import Verif.Props.TestEndsCases
/-
C119: a test with a client that connects.
-/
namespace KM.Props
open KM KM.Spec

/-- Where the client of `tested` is: it connects in step 13, is accepted in step 14 and is served after step 17. -/
def visitor (n : Nat) : Desk := if n ≤ 13 then [] else if n ≤ 14 then [.waiting 0] else if n ≤ 17 then [.held 0] else [.served 0]

set_option maxRecDepth 100000 in
theorem visitor_goes : ((List.range 71).all fun n => n == 13 || decide (Desk.next (testedRun.st n).sys (testedRun.ev n) (visitor n) = some (visitor (n + 1)))) = true := by decide +kernel

set_option maxRecDepth 100000 in
theorem visitor_connects : testedRun.ev 13 = .send 0 [] ∧ ((testedRun.st 13).sys.runs[0]?).map (·.pc) = some .accept ∧ (testedRun.st 13).sys.closes = [] := ⟨rfl, rfl, rfl⟩

set_option maxRecDepth 100000 in
theorem visitor_waits : (frames (got 0 (upTo testedRun.ev 18))).length = 0 := by decide +kernel

/-- The hypotheses of `C119_test`, and with it those of `C119_settled`. -/
theorem visited : ∃ (hs : Nat → Hub) (es : Nat → DEv), VisitTest ⟨9092, []⟩ 0 0 [0] (fun _ => 1) hs es ∧ KM.Roomy (sysOf (netOf hs)) (evOf (nevOf es)) ∧
    (∀ n, Modest ⟨9092, []⟩ ((hs n).net.sys.view 0)) ∧ es 13 = .connect 0 := by
  obtain ⟨ns, es, hT, hr, hd, h4, h5, h6⟩ := tested_endless
  have hgo := visitor_goes
  have hco := visitor_connects
  have hwa := visitor_waits
  generalize testedRun.st = st at *
  generalize testedRun.ev = ev at *
  let hs : Nat → Hub := fun n => ⟨ns n, visitor n⟩
  let fs : Nat → DEv := fun n => if n = 13 then .connect 0 else .net (es n)
  have hfs : ∀ n, n ≠ 13 → fs n = .net (es n) := fun n hn => if_neg hn
  have hnev : nevOf fs = es := by
    funext n
    unfold nevOf
    by_cases hn : n = 13
    · subst hn
      rw [h5 13 (by decide), hco.1]; rfl
    · rw [hfs n hn]; rfl
  have hnet : netOf hs = ns := rfl
  have late : ∀ n, 18 ≤ n → visitor n = [.served 0] := fun n hn => by
    unfold visitor; rw [if_neg (by omega), if_neg (by omega), if_neg (by omega)]
  have only : ∀ {n c : Nat}, (hs n).desk[0]? = some (.served c) → c = 0 ∧ 18 ≤ n := by
    intro n c hc
    have hc : (visitor n)[0]? = some (.served c) := hc
    unfold visitor at hc
    split at hc
    · cases hc
    split at hc
    · cases hc
    split at hc
    · cases hc
    · cases hc; exact ⟨rfl, by omega⟩
  have has : ∀ n, 1 ≤ responses es 0 n → HasAll hs fs 1 0 n := fun n hn => by
    refine ⟨0, ?_, by rw [hnev]; exact hn⟩
    show (visitor n)[0]? = _
    rw [late n]
    · rfl
    · refine Classical.byContradiction fun hlt => ?_
      have := responses_mono es 0 (show n ≤ 18 by omega)
      have e : responses es 0 18 = 0 := by
        unfold responses
        rw [show upTo es 18 = upTo ev 18 from List.map_congr_left fun m hm => h5 m (by have := List.mem_range.1 hm; omega)]
        exact hwa
      omega
  have fsn : ∀ {n : Nat} {e : NEv}, fs n = .net e → es n = e := fun {n e} he => by
    by_cases hn : n = 13
    · subst hn; rw [show fs 13 = .connect 0 from rfl] at he; cases he
    · rw [hfs n hn] at he; cases he; rfl
  have hH : HubEndless ⟨9092, []⟩ 0 hs fs := by
    constructor
    · show (⟨ns 0, visitor 0⟩ : Hub) = _
      rw [hT.first]; rfl
    · intro n
      by_cases hn : n = 13
      · subst hn
        show Hub.Step ⟨ns 13, visitor 13⟩ (.connect 0) ⟨ns 14, visitor 14⟩
        have e : ns 14 = ns 13 := by
          have := hT.step 13
          rw [h5 13 (by decide), hco.1] at this
          generalize ns 13 = a at this
          generalize ns 14 = b at this
          cases this
          have : setLink a.links 0 { a.links 0 with up := (a.links 0).up ++ [] } = a.links := by
            funext c
            unfold setLink
            split
            · next e => rw [e]; simp
            · rfl
          rw [this]
        rw [e]
        refine Hub.Step.connect (d := []) ⟨?_, ?_⟩
        · rw [h4 13 (by decide)]
          have := hco.2.1
          cases hr : (st 13).sys.runs[0]? with
          | none => rw [hr] at this; cases this
          | some r => rw [hr] at this; refine ⟨r, rfl, fun e => ?_⟩; rw [Option.map_some, e] at this; cases this
        · rw [h4 13 (by decide), hco.2.2]; nofun
      · rw [hfs n hn]
        refine .net (hT.step n) ?_
        by_cases hlt : n < 71
        · have := List.all_eq_true.1 hgo n (List.mem_range.2 hlt)
          rw [Bool.or_eq_true, beq_iff_eq, decide_eq_true_eq] at this
          rw [h4 n (by omega), h5 n hlt]
          exact this.resolve_left hn
        · rw [h6 n (by omega), late n (by omega), late (n + 1) (by omega)]; rfl
    · intro t ht
      have := hT.fair t trivial fun n => by
        obtain ⟨m, m1, m2⟩ := ht (max n 18)
        refine ⟨m, by omega, m2.resolve_right ?_⟩
        rintro ⟨g, r, _, _, _, x, hx⟩
        have hx : (visitor m)[x]? = _ := hx
        rw [late m (by omega)] at hx
        have := List.mem_of_getElem? hx
        simp at this
      intro n
      obtain ⟨m, m1, m2⟩ := this n
      refine ⟨m, m1, ?_⟩
      rw [show ofHub (fs m) = es m from congrFun hnev m]
      exact m2
  refine ⟨hs, fs, { toHubEndless := hH, others := hT.others, parent := ?_, patient := ?_, connects := ?_, asks := ?_, stays := ?_, writes := ?_, arrives := ?_, receives := ?_, stops := ?_ }, ?_, hd, rfl⟩
  · intro n e; exact hT.parent n (fsn e)
  · intro n cl h1 h2 x hx
    obtain rfl : x = 0 := by simpa using hx
    rw [hnev] at h1
    exact has n (hT.patient n cl h1 h2 0 (by simp))
  · intro x hx
    obtain rfl : x = 0 := by simpa using hx
    refine ⟨18, ?_⟩
    show 0 < (visitor 18).length
    decide
  · intro x hx N c hc
    obtain rfl : x = 0 := by simpa using hx
    obtain ⟨rfl, _⟩ := only hc
    rw [hnev]
    exact hT.asks 0 (by simp)
  · intro x hx N c hc n e
    obtain rfl : x = 0 := by simpa using hx
    obtain ⟨rfl, _⟩ := only hc
    rw [hnev]
    exact hT.stays 0 (by simp) n (fsn e)
  · intro x hx N c hc n b e
    obtain rfl : x = 0 := by simpa using hx
    obtain ⟨rfl, _⟩ := only hc
    rw [hnev]
    exact hT.writes 0 (by simp) n b (fsn e)
  · intro x hx N c hc n h1 h2
    obtain rfl : x = 0 := by simpa using hx
    obtain ⟨rfl, _⟩ := only hc
    rw [hnev]
    obtain ⟨n0, h0⟩ : ∃ n0, 1 ≤ responses es 0 n0 := by
      obtain ⟨n0, h0⟩ := C118_answered hT (fun c _ => hr c) hd
      exact ⟨n0, h0 0 (by simp)⟩
    exact ⟨max n n0, Nat.le_max_left .., .inr (Nat.le_trans h0 (responses_mono es 0 (Nat.le_max_right ..)))⟩
  · intro x hx N c hc n h1
    obtain rfl : x = 0 := by simpa using hx
    obtain ⟨rfl, _⟩ := only hc
    rw [hnev]
    obtain ⟨n0, h0⟩ : ∃ n0, 1 ≤ responses es 0 n0 := by
      obtain ⟨n0, h0⟩ := C118_answered hT (fun c _ => hr c) hd
      exact ⟨n0, h0 0 (by simp)⟩
    exact ⟨max n n0, Nat.le_max_left .., .inr (Nat.le_trans h0 (responses_mono es 0 (Nat.le_max_right ..)))⟩
  · rintro ⟨n, hn⟩
    obtain ⟨c, hc, hx⟩ := hn 0 (by simp)
    obtain ⟨rfl, _⟩ := only hc
    rw [hnev] at hx ⊢
    exact hT.stops ⟨n, fun c hc => by
      obtain rfl : c = 0 := by simpa using hc
      exact hx⟩
  · rw [hnev]; exact hr

/-- The client that connects in `visited` is served: the hypotheses of `C119_settled`, `C119_served` can be met too. -/
example : ∃ (hs : Nat → Hub) (es : Nat → DEv) (n x g : Nat), HubEndless ⟨9092, []⟩ 0 hs es ∧ (hs n).desk[x]? = some (.waiting g) := by
  obtain ⟨hs, es, hV, _, _, he⟩ := visited
  refine ⟨hs, es, 14, (hs 13).desk.length, 0, hV.toHubEndless, ?_⟩
  have hst := hV.toHubEndless.step 13
  rw [he] at hst
  generalize hs 13 = a at hst
  generalize hs 14 = b at hst
  cases hst with
  | connect => simp

end KM.Props
