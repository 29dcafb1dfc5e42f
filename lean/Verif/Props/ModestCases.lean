import Verif.Props.Modest
import Verif.Props.OnceCases
/-
C114: sizes of responses in runs of the mock, and the run of C113, whose data is modest.
-/
namespace KM.Props
open KM KM.Spec

theorem modest_of {sv : Server} {w : World} (h1 : (w.ds.all fun x => x.2.all fun y => decide ((y.2.records.map wireSize).sum < 2 ^ 24)) = true)
    (h2 : assignmentBytes w < 2 ^ 32 - 20) (h3 : sv.versions.length < 2 ^ 29) : Modest sv w := by
  refine ⟨fun t p => ?_, h2, h3⟩
  unfold logBytes World.log Store.part?
  cases e : GoMap.get w.ds t with
  | none => exact (by decide : 0 < 2 ^ 24)
  | some kt =>
    rw [Option.bind_some]
    cases e2 : GoMap.get kt p with
    | none => exact (by decide : 0 < 2 ^ 24)
    | some kp => exact of_decide_eq_true (List.all_eq_true.1 (List.all_eq_true.1 h1 _ (GoMap.get_mem e)) _ (GoMap.get_mem e2))

/-- The hypotheses of `C114_wire`: a Fetch that names two partitions, with one record each. The response has 131 bytes; the bound is 190. -/
example : ∃ t1, Exchange ⟨9092, []⟩ 0 0 askBoth 7 t1 (taken 0 askBoth 7 otherState) (during 0 13 askBoth 7 otherState) (answered 0 13 askBoth 7 otherState) ∧
    (sent (actsOf 0 (during 0 13 askBoth 7 otherState))).length = 131 ∧ 8 + mostBytes ⟨9092, []⟩ ((answered 0 13 askBoth 7 otherState).view 0) askBoth = 190 := by
  obtain ⟨t1, h⟩ := askBoth_exchange
  exact ⟨t1, h, by decide +kernel, by decide +kernel⟩

/-- An assignment is just as large as the bound. -/
example : ∃ t1, Exchange ⟨9092, []⟩ 0 0 askSync 7 t1 (taken 0 askSync 7 oneRecord) (during 0 5 askSync 7 oneRecord) (answered 0 5 askSync 7 oneRecord) ∧
    (sent (actsOf 0 (during 0 5 askSync 7 oneRecord))).length = 8 + mostBytes ⟨9092, []⟩ ((answered 0 5 askSync 7 oneRecord).view 0) askSync := by
  obtain ⟨t0, h⟩ := oneRecord_run
  exact ⟨_, exchange_of_play h 0 5 askSync 7 askSync_wf (by decide +kernel), by decide +kernel⟩

set_option maxRecDepth 100000 in
theorem relay_modest : Modest ⟨9092, []⟩ (net6.sys.view 0) := modest_of (by decide +kernel) (by decide +kernel) (by decide)

set_option maxRecDepth 100000 in
/-- The hypotheses of `C113_modest` and of `C114_received`; the second member's Fetch response has 72 bytes. -/
example : Labelled 0 (slice ((net6.sys.view 0).log [116] 0) 0 2) [theMessage, anotherMessage] ∧
    ∃ m req corr client, (frames (asked 1 tr6))[1]? = some m ∧ Accepted req corr client m ∧ (reply6.drop 4).length = 72 ∧ (reply6.drop 4).length ≤ 4 + mostBytes ⟨9092, []⟩ (net6.sys.view 0) req := by
  refine ⟨(C113_modest relay relay_run relay_modest (by decide) relay_not_set).1, ?_⟩
  obtain ⟨m, req, corr, client, h1, h2, h3⟩ := C114_received relay_run relay_modest (c := 1) (i := 1) (r := reply6.drop 4) (by decide +kernel)
  exact ⟨m, req, corr, client, h1, h2, by decide +kernel, h3⟩

end KM.Props
