import Verif.Props.Small
import Verif.Props.PollsCases
/-
C124: a small test that meets the hypotheses.
-/
namespace KM.Props
open KM KM.Spec

theorem little_of {B : Nat} {sv : Server} {w : World} (h1 : (w.ds.all fun x => x.2.all fun y => decide ((y.2.records.map wireSize).sum ≤ B)) = true)
    (h2 : assignmentBytes w < 2 ^ 30) (h3 : sv.versions.length < 2 ^ 27) : Little B sv w := by
  refine ⟨fun t p => ?_, h2, h3⟩
  unfold logBytes World.log Store.part?
  cases e : GoMap.get w.ds t with
  | none => exact Nat.zero_le _
  | some kt =>
    rw [Option.bind_some]
    cases e2 : GoMap.get kt p with
    | none => exact Nat.zero_le _
    | some kp => exact of_decide_eq_true (List.all_eq_true.1 (List.all_eq_true.1 h1 _ (GoMap.get_mem e)) _ (GoMap.get_mem e2))

set_option maxRecDepth 100000 in
theorem poll_little : Little 1000 ⟨9092, []⟩ ((servedRun.st 46).sys.view 0) := little_of (by decide +kernel) (by decide +kernel) (by decide)

set_option maxRecDepth 100000 in
theorem poll_ample : (∀ q, fetchAsked (askFetch.message 7 (some [99])) = some q → ∀ src ∈ q.named, (1000 : Int) ≤ src.2.maxBytes.toInt) ∧
    ∀ q, fetchAsked (askNext.message 7 (some [99])) = some q → ∀ src ∈ q.named, (1000 : Int) ≤ src.2.maxBytes.toInt := by
  constructor
  · intro q hq
    have : (match fetchAsked (askFetch.message 7 (some [99])) with | some q => q.named.all fun src => decide ((1000 : Int) ≤ src.2.maxBytes.toInt) | none => true) = true := by decide +kernel
    rw [hq] at this
    exact fun src hs => of_decide_eq_true (List.all_eq_true.1 this src hs)
  · intro q hq
    have : (match fetchAsked (askNext.message 7 (some [99])) with | some q => q.named.all fun src => decide ((1000 : Int) ≤ src.2.maxBytes.toInt) | none => true) = true := by decide +kernel
    rw [hq] at this
    exact fun src hs => of_decide_eq_true (List.all_eq_true.1 this src hs)

/-- The hypotheses of `C124_answered`, `C124_exact` and `C124_all`: a record is posted, and a client fetches for ever, with a limit of 1000 bytes; the data never has more. -/
theorem small_case : ∃ (ns : Nat → Net) (es : Nat → NEv) (sa : Sys) (tc : List SEv), NetEndless ⟨9092, []⟩ 0 ns es ∧ (∀ n, Little 1000 ⟨9092, []⟩ ((ns n).sys.view 0)) ∧ Working ns es 0 ∧ Ample 1000 es 0 ∧
    CallRun sa 1 firstPost.call tc (ns 25).sys ∧ Consuming es 0 firstPost.topic (BitVec.ofInt 32 firstPost.partition) 0 id pollGets ∧
    (frames (asked 0 (upTo es 46)))[0]? = some (askFetch.message 7 (some [99])) ∧ (∀ n, n ≤ 46 → ns n = servedRun.st n) ∧ (∀ n, n < 46 → es n = servedRun.ev n) ∧
    ∀ n, 46 ≤ n → es n = pollEv ((n - 46) % 18) := by
  obtain ⟨ns, es, h1, h2, h3, h4, h5, h6, h7, h8, h9⟩ := poll_endless
  have e0 : frames ([] : Bytes) = [] := rfl
  have hfr : ∀ k, frames (asked 0 (upTo es (46 + 18 * k))) = askFetch.message 7 (some [99]) :: List.replicate k (askNext.message 7 (some [99])) := by
    intro k
    have hfr := C13_split (rest := []) (poll_sends h7 h8 k)
    rwa [List.append_nil, e0, List.append_nil] at hfr
  refine ⟨ns, es, _, _, h1, ?_, h2, ?_, by rw [h6 25 (by decide)]; exact served_post, poll_consumes h7 h8, by rw [hfr 0]; rfl, h6, h7, h8⟩
  · intro n
    obtain ⟨N, N1, N2⟩ := h5 n
    obtain ⟨l, _, hl⟩ := h1.run_from N1
    obtain ⟨l', hl', _⟩ := hl.sys.steps 0
    obtain ⟨hist, hreach, _⟩ := reachedBy (h1.run n).sys 0
    rw [N2] at hl'
    have a := poll_little
    refine ⟨fun t p => Nat.le_trans (logBytes_mono hl' t p) (a.logs t p), Nat.lt_of_le_of_lt (assignmentBytes_mono hreach.nodup hl') a.names, a.versions⟩
  · intro n i m q hm
    obtain ⟨l, hl⟩ := upTo_le (es := es) (show n ≤ 46 + 18 * n by omega)
    obtain ⟨x, hx⟩ := frames_append (asked 0 (upTo es n)) (asked 0 l)
    have hg := hfr n
    rw [hl, asked_append, ← hx] at hg
    have hmem : m ∈ frames (asked 0 (upTo es n)) ++ x := List.mem_append_left _ (List.mem_of_getElem? hm)
    rw [hg] at hmem
    rcases List.mem_cons.1 hmem with rfl | h
    · exact poll_ample.1 q
    · rw [List.eq_of_mem_replicate h]; exact poll_ample.2 q

end KM.Props
