import Verif.Props.CloseDone
import Verif.Props.WindDown
/-
C86: `Close` waits for a Fetch that waits for records and sees the server finish; and a Fetch that lasts for ever, so that `Close` does not return.
-/
namespace KM.Props
open Spec

/-- A client of a mock with records. -/
def readyClient : CSys := CSys.new ⟨9092, []⟩ exFetchWorld

/-- The Fetch request `fetchBytes` from offset 9, which is past the end. -/
def fetchPast : Bytes := fetchBytes.take 49 ++ [9] ++ fetchBytes.drop 50

/-- A Fetch has found no record; `Close` is called and waits; the server is told to finish. The request is answered, the client's goroutine ends, and `Close` returns. -/
def closeDone : List CPick := [.own, .own, .data fetchPast] ++ List.replicate 8 .own ++ [.caller 0, .caller 0, .finish] ++ List.replicate 6 .own ++ [.caller 0] ++ List.replicate 4 .own ++
  [.caller 0, .caller 0]

def doneResult : CEv → Bool
  | .own ⟨.isDone, r⟩ => r
  | .own ⟨.fetchRecord _ _ _, r⟩ => match r with
    | some (some _) => false
    | _ => true
  | _ => true

theorem doneResult_sound {e : REv} (h : doneResult (.own e) = true) : doneResp e.act e.resp := by
  obtain ⟨a, r⟩ := e
  cases a
  case isDone => exact h
  case fetchRecord =>
    intro rec hr
    have hr : r = some (some rec) := hr
    subst hr
    cases h
  all_goals exact trivial

theorem done_from {ps : List CPick} {s : CSys} {n0 : Nat} (h : ((cplay ps s).1.drop n0).all doneResult = true) : DoneFrom (cthenEvents ps s) n0 := by
  intro m hm e he
  unfold cthenEvents at he
  rw [List.getD_eq_getElem?_getD] at he
  cases hg : (cplay ps s).1[m]? with
  | none => rw [hg] at he; cases he
  | some x =>
    rw [hg] at he
    have he : x = .own e := he
    subst he
    refine doneResult_sound (List.all_eq_true.1 h _ (List.mem_of_getElem? (i := m - n0) ?_))
    rw [List.getElem?_drop, show n0 + (m - n0) = m by omega]
    exact hg

set_option maxRecDepth 100000 in
/-- The hypotheses of `C86_returns_done_calm_partial` hold here, with a Fetch in progress when `Close` is called, which sees that the server is done. -/
example : CEndless ⟨9092, []⟩ exFetchWorld (cthen closeDone readyClient) (cthenEvents closeDone readyClient) ∧
    (∀ j, .caller j ∉ (List.range 11).map (cthenEvents closeDone readyClient)) ∧ cthenEvents closeDone readyClient 11 = .caller 0 ∧ (cthen closeDone readyClient 13).requests = 1 ∧
    (cthen closeDone readyClient 13).callers 0 = .requests .asleep ∧
    served (ownOf ((List.range 11).map (cthenEvents closeDone readyClient))) = frames (received (ownOf ((List.range 11).map (cthenEvents closeDone readyClient)))) ∧
    DoneFrom (cthenEvents closeDone readyClient) 14 ∧ (cthen closeDone readyClient 14).requests = 1 := by
  have hend : ∀ n, closeDone.length ≤ n → (cthen closeDone readyClient n).prog = none ∧ (cthen closeDone readyClient n).callers 0 = .returned := by
    intro n hn
    rw [cthen_after hn]
    have h1 : (cplay closeDone readyClient).2.prog.isNone = true := by decide +kernel
    exact ⟨Option.isNone_iff_eq_none.1 h1, by decide +kernel⟩
  have hfull : cfull closeDone readyClient = true := by decide +kernel
  have hlen : closeDone.length = 27 := rfl
  have hzero : ∀ e ∈ (cplay closeDone readyClient).1, callerZero e = true := by
    intro e he
    exact List.all_eq_true.1 (by decide +kernel : (cplay closeDone readyClient).1.all callerZero = true) e he
  have hev : ∀ n i, i ≠ 0 → cthenEvents closeDone readyClient n ≠ .caller i := by
    intro n i hi he
    unfold cthenEvents at he
    rw [List.getD_eq_getElem?_getD] at he
    cases hg : (cplay closeDone readyClient).1[n]? with
    | none => rw [hg] at he; cases he
    | some e =>
      rw [hg] at he
      have := hzero e (List.mem_of_getElem? hg)
      rw [show e = .caller i from he] at this
      exact hi (of_decide_eq_true this)
  refine ⟨⟨rfl, cthen_step hfull, ?_, ?_⟩, no_caller (by decide +kernel), isZero_eq (by decide +kernel), by decide +kernel, by decide +kernel, by decide +kernel,
    done_from (by decide +kernel), by decide +kernel⟩
  · intro n p hp hn
    have h25 : (cthen closeDone readyClient 25).prog.isNone = true := by decide +kernel
    have h26 : (cthen closeDone readyClient 26).prog.isNone = true := by decide +kernel
    refine ⟨24, ?_, by decide +kernel⟩
    refine Nat.le_of_not_lt fun h => ?_
    have : (cthen closeDone readyClient n).prog = none := by
      by_cases e : n = 25
      · subst e; exact Option.isNone_iff_eq_none.1 h25
      · by_cases e : n = 26
        · subst e; exact Option.isNone_iff_eq_none.1 h26
        · exact (hend n (by omega)).1
    rw [this] at hp; cases hp
  · intro i n hi hc
    by_cases h0 : i = 0
    · subst h0
      refine ⟨26, Nat.le_of_not_lt fun h => hc ?_, isZero_eq (by decide +kernel)⟩
      unfold CSys.callerStep
      rw [(hend n (by omega)).2]
    · refine absurd ?_ hi
      clear hi hc
      induction n with
      | zero => rfl
      | succ n ih => exact caller_store (.cons (cthen_step hfull n) (.nil _)) (fun hm => hev n i h0 (List.mem_singleton.1 hm).symm) ih

/-! ### A Fetch that lasts for ever -/

/-- A Fetch that finds a record too big for its limit is in progress when `Close` is called; then the server is told to finish. -/
def closeSpins : List CPick := [.own, .own, .data fetchBytes] ++ List.replicate 8 .own ++ [.caller 0, .caller 0, .finish]

/-- The state from then on, whenever the polling loop of the Fetch begins a round. -/
def spinState : CSys := (cplay closeSpins readyClient).2

set_option maxRecDepth 100000 in
theorem spinState_prog : ∃ ex k, spinState.prog = some (.loop (⟨[spinData], true⟩ : FetchSt) (fetchBody ex) k) := ⟨_, _, rfl⟩

set_option maxRecDepth 100000 in
/-- Against the full statement. `Close` does not return, although the scheduler is fair, the only request received was taken up before, and the server was told to finish: the request is a
Fetch that goes on for ever, since the next record is bigger than its limit (C36). -/
theorem C86_hangs : ∃ (ss : Nat → CSys) (es : Nat → CEv), CEndless ⟨9092, []⟩ exFetchWorld ss es ∧ (∀ j, .caller j ∉ (List.range 11).map es) ∧ es 11 = .caller 0 ∧
    served (ownOf ((List.range 11).map es)) = [fetchBytes.drop 4] ∧ frames (received (ownOf ((List.range 11).map es))) = [fetchBytes.drop 4] ∧
    ∀ n, 14 ≤ n → (ss n).callers 0 = .requests .asleep ∧ (ss n).world.cancelled = true := by
  obtain ⟨ex, k, hk⟩ := spinState_prog
  have hc : spinState.world.cancelled = true := by decide +kernel
  have ha : spinState.callers 0 = .requests .asleep := by decide +kernel
  have hfull : cfull closeSpins readyClient = true := by decide +kernel
  have hlen : closeSpins.length = 14 := rfl
  let next : CSys := { spinState with prog := some (Prog.unroll (⟨[spinData], true⟩ : FetchSt) (fetchBody ex) k) }
  let found : CEv := .own ⟨.fetchRecord [116] 0 0, some (some ⟨0, 10, none, some [1], []⟩)⟩
  have h1 : CSys.Step spinState .round next := .round hk
  have h2 : CSys.Step next found spinState := by
    have hs : CSys.Step next found _ := .own (s := next) (a := .fetchRecord [116] 0 0) (r := some (some ⟨0, 10, none, some [1], []⟩)) (w := spinState.world) rfl trivial
      ⟨_, rfl, rfl, rfl⟩
    have he : ({ next.effect (.fetchRecord [116] 0 0) with prog := some (.loop (⟨[spinData], true⟩ : FetchSt) (fetchBody ex) k), world := spinState.world } : CSys) = spinState := by
      rw [← hk]; rfl
    rw [← he]
    exact hs
  let ss : Nat → CSys := fun n => if n < 14 then cthen closeSpins readyClient n else if n % 2 = 0 then spinState else next
  let es : Nat → CEv := fun n => if n < 14 then cthenEvents closeSpins readyClient n else if n % 2 = 0 then .round else found
  have hlow : ∀ n, n < 14 → ss n = cthen closeSpins readyClient n := fun n hn => if_pos hn
  have elow : ∀ n, n < 14 → es n = cthenEvents closeSpins readyClient n := fun n hn => if_pos hn
  have hhigh : ∀ n, 14 ≤ n → ss n = spinState ∨ ss n = next := by
    intro n hn
    by_cases h : n % 2 = 0
    · exact .inl ((if_neg (by omega)).trans (if_pos h))
    · exact .inr ((if_neg (by omega)).trans (if_neg h))
  have step : ∀ n, CSys.Step (ss n) (es n) (ss (n + 1)) := by
    intro n
    by_cases hn : n < 14
    · rw [hlow n hn, elow n hn]
      have hs := cthen_step hfull n
      by_cases hn' : n + 1 < 14
      · rw [hlow _ hn']; exact hs
      · have : n = 13 := by omega
        subst this
        rw [cthen_after (n := 13 + 1) (by rw [hlen]; omega)] at hs
        exact hs
    · by_cases h : n % 2 = 0
      · rw [show ss n = spinState from (if_neg hn).trans (if_pos h), show es n = .round from (if_neg hn).trans (if_pos h),
          show ss (n + 1) = next from (if_neg (by omega)).trans (if_neg (by omega))]
        exact h1
      · rw [show ss n = next from (if_neg hn).trans (if_neg h), show es n = found from (if_neg hn).trans (if_neg h),
          show ss (n + 1) = spinState from (if_neg (by omega)).trans (if_pos (by omega))]
        exact h2
  have asleep : ∀ n, 14 ≤ n → (ss n).callers 0 = .requests .asleep ∧ (ss n).world.cancelled = true := by
    intro n hn
    rcases hhigh n hn with e | e <;> rw [e] <;> exact ⟨ha, hc⟩
  have hzero : ∀ e ∈ (cplay closeSpins readyClient).1, callerZero e = true := by
    intro e he
    exact List.all_eq_true.1 (by decide +kernel : (cplay closeSpins readyClient).1.all callerZero = true) e he
  have hev : ∀ n i, i ≠ 0 → es n ≠ .caller i := by
    intro n i hi he
    by_cases hn : n < 14
    · rw [elow n hn] at he
      unfold cthenEvents at he
      rw [List.getD_eq_getElem?_getD] at he
      cases hg : (cplay closeSpins readyClient).1[n]? with
      | none => rw [hg] at he; cases he
      | some e =>
        rw [hg] at he
        have := hzero e (List.mem_of_getElem? hg)
        rw [show e = .caller i from he] at this
        exact hi (of_decide_eq_true this)
    · by_cases h : n % 2 = 0
      · rw [show es n = .round from (if_neg hn).trans (if_pos h)] at he; cases he
      · exact nomatch (show CEv.own ⟨.fetchRecord [116] 0 0, _⟩ = CEv.caller i from (show es n = found from (if_neg hn).trans (if_neg h)).symm.trans he)
  have hmap : (List.range 11).map es = (List.range 11).map (cthenEvents closeSpins readyClient) :=
    List.map_congr_left fun n hn => elow n (by have := List.mem_range.1 hn; omega)
  refine ⟨ss, es, ⟨rfl, step, ?_, ?_⟩, ?_, ?_, ?_, ?_, asleep⟩
  · intro n p _ _
    refine ⟨14 + 2 * n, by omega, ?_⟩
    rw [show es (14 + 2 * n) = .round from (if_neg (by omega)).trans (if_pos (by omega))]
    rfl
  · intro i n hi hs
    by_cases h0 : i = 0
    · subst h0
      refine ⟨12, Nat.le_of_not_lt fun h => hs ?_, ?_⟩
      · have : (ss n).callers 0 = .requests .asleep := by
          by_cases hn : n < 14
          · rw [hlow n hn, show n = 13 by omega]; decide +kernel
          · exact (asleep n (by omega)).1
        unfold CSys.callerStep
        rw [this]
      · rw [elow 12 (by omega)]; exact isZero_eq (by decide +kernel)
    · refine absurd ?_ hi
      clear hi hs
      induction n with
      | zero => rfl
      | succ n ih => exact caller_store (.cons (step n) (.nil _)) (fun hm => hev n i h0 (List.mem_singleton.1 hm).symm) ih
  · rw [hmap]; exact no_caller (by decide +kernel)
  · rw [elow 11 (by omega)]; exact isZero_eq (by decide +kernel)
  · rw [hmap]; decide +kernel
  · rw [hmap]; decide +kernel

end KM.Props
