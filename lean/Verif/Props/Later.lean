import Verif.Props.Wire
import Verif.Props.Missing
/-
Property C126: offsets found by timestamp never go backwards.
-/
namespace KM.Props
open KM Spec

/-- Timestamp `T` of a ListOffsets request is not later than `T'`: -2 stands for the beginning, -1 for the end of the log. -/
def Sooner (T T' : Int) : Prop := T = -2 ∨ T' = -1 ∨ (T ≠ -1 ∧ T' ≠ -2 ∧ T ≤ T')

theorem timeOffset_mono {log more : List Record} {T T' : Int} {k k' : Nat} (h : TimeOffset log T k) (h' : TimeOffset (log ++ more) T' k') (hT : T ≤ T') : k ≤ k' := by
  refine Classical.byContradiction fun hlt => ?_
  obtain ⟨j, rfl⟩ : ∃ j, k = j + 1 := ⟨k - 1, by omega⟩
  have hj : j < log.length := by have := h.1; omega
  have e : log[j]? = some log[j] := List.getElem?_eq_getElem hj
  have a := h.2.2 j _ rfl e
  have b := h'.2.1 j log[j] (by omega) (by rw [List.getElem?_append_left hj]; exact e)
  omega

theorem forall₂_both {α β : Type} {R : α → β → Prop} {l : List α} {l' : List β} (h : List.Forall₂ R l l') {i : Nat} {a : α} {b : β} (ha : l[i]? = some a) (hb : l'[i]? = some b) : R a b := by
  obtain ⟨a', h1, h2⟩ := forall₂_get h hb
  rw [ha] at h1
  cases h1
  exact h2

/-- **C126**: a ListOffsets request is answered, and later another one, by whomever. For a partition that both name: if the first was told an offset, so is the second; and if the timestamp of the
second is not earlier than that of the first, its offset is not either. Records may have been posted, with any timestamps, meanwhile. -/
theorem C126_later {sv : Server} {clock : Int} {k k' : Nat} {q q' : ListOffsetsRequest} {c c' : I32} {t1 t2 tr tr' a : List SEv} {s1 s2 s3 s4 : Sys}
    (h : Exchange sv clock k (.listOffsets q) c t1 s1 tr s2) (hr : Sys.Run s2 a s3) (h' : Exchange sv clock k' (.listOffsets q') c' t2 s3 tr' s4)
    (hl : ∀ t p, ((s4.view 0).log t p).length < 2 ^ 63) :
    ∃ x x', Client.response Client.listOffsets (sent (actsOf k tr)) = some ((c, x), []) ∧ Client.response Client.listOffsets (sent (actsOf k' tr')) = some ((c', x'), []) ∧
      ∀ (i j i' j' : Nat) qt qp rt rp qt' qp' rt' rp', q.topics[i]? = some qt → qt.partitions[j]? = some qp → x.topics[i]? = some rt → rt.partitions[j]? = some rp →
        q'.topics[i']? = some qt' → qt'.partitions[j']? = some qp' → x'.topics[i']? = some rt' → rt'.partitions[j']? = some rp' →
        qt.name = qt'.name → qp.partitionIndex = qp'.partitionIndex → rp.errorCode = 0 →
        rp'.errorCode = 0 ∧ (Sooner qp.timestamp.toInt qp'.timestamp.toInt → rp.offset.toInt ≤ rp'.offset.toInt) := by
  obtain ⟨x, x1, x2⟩ := C59_list_offsets h
  obtain ⟨y, y1, y2⟩ := C59_list_offsets h'
  refine ⟨x, y, x1, y1, ?_⟩
  intro i j i' j' qt qp rt rp qt' qp' rt' rp' e1 e2 e3 e4 f1 f2 f3 f4 et ep hz
  obtain ⟨_, a1⟩ := forall₂_both x2 e1 e3
  obtain ⟨_, a2⟩ := forall₂_both a1 e2 e4
  obtain ⟨_, b1⟩ := forall₂_both y2 f1 f3
  obtain ⟨_, b2⟩ := forall₂_both b1 f2 f4
  rw [← et, ← ep] at b2
  generalize qt.name = t at *
  generalize qp.partitionIndex = p at *
  have k1 := C46_kept hr
  obtain ⟨_, _, _, hs'⟩ := h'.serves
  have k2 := C46_kept hs'.during
  rcases a2 with ⟨a2, _⟩ | ⟨_, a3, n, n1, n2, n3, n4, n5⟩
  · rw [hz] at a2; cases a2
  have hp3 := k1.2.2.2 t p a3
  rcases b2 with ⟨_, b2⟩ | ⟨b2, _, m, m1, m2, m3, m4, m5⟩
  · exact absurd hp3 b2
  refine ⟨b2, fun hT => ?_⟩
  have l1 := k1.1 t p
  have l2 := k2.1 t p
  have hlen := hl t p
  generalize (s2.view 0).log t p = L2 at *
  generalize (s3.view 0).log t p = L3 at *
  generalize (s4.view 0).log t p = L4 at *
  subst l1
  rw [List.length_append] at m1
  have hnm : n ≤ m := by omega
  have hpre : ∃ z, L4.take m = L2.take n ++ z := by
    refine ⟨(L4.take m).drop n, ?_⟩
    have e : L2.take n = L4.take n := by rw [l2, List.append_assoc, List.take_append_of_le_length n2]
    rw [e]
    have := (List.take_append_drop n (L4.take m)).symm
    rwa [List.take_take, Nat.min_eq_left hnm] at this
  obtain ⟨z, hz'⟩ := hpre
  have num : ∀ o : Nat, o < 2 ^ 63 → (BitVec.ofNat 64 o).toInt = o := by
    intro o ho
    rw [BitVec.toInt_eq_toNat_of_lt] <;> rw [BitVec.toNat_ofNat, Nat.mod_eq_of_lt (by omega)] <;> omega
  have small : ∀ {T : Int} {o : Nat}, TimeOffset (L2.take n) T o → o ≤ n := by
    intro T o ho
    have := ho.1
    rw [List.length_take] at this
    omega
  have first : ∃ o : Nat, rp.offset = BitVec.ofNat 64 o ∧ o ≤ n ∧ (qp.timestamp.toInt = -2 → o = 0) ∧ (qp.timestamp.toInt ≠ -1 → qp.timestamp.toInt ≠ -2 → TimeOffset (L2.take n) qp.timestamp.toInt o) := by
    by_cases ha : qp.timestamp.toInt = -1
    · exact ⟨n, n3 ha, Nat.le_refl _, fun hb => by omega, fun hb => absurd ha hb⟩
    · by_cases hb : qp.timestamp.toInt = -2
      · exact ⟨0, (n4 hb).1, Nat.zero_le _, fun _ => rfl, fun _ hc => absurd hb hc⟩
      · obtain ⟨o, o1, o2⟩ := n5 ha hb
        exact ⟨o, o1, small o2, fun hc => absurd hc hb, fun _ _ => o2⟩
  obtain ⟨o, o1, o2, o3, o4⟩ := first
  have second : ∃ o' : Nat, rp'.offset = BitVec.ofNat 64 o' ∧ o' ≤ m ∧ o ≤ o' := by
    by_cases ha : qp'.timestamp.toInt = -1
    · exact ⟨m, m3 ha, Nat.le_refl _, by omega⟩
    · by_cases hb : qp'.timestamp.toInt = -2
      · refine ⟨0, (m4 hb).1, Nat.zero_le _, ?_⟩
        rcases hT with hT | hT | hT
        · rw [o3 hT]
        · exact absurd hT ha
        · exact absurd hb hT.2.1
      · obtain ⟨o', p1, p2⟩ := m5 ha hb
        have : o' ≤ m := by
          have := p2.1
          rw [List.length_take] at this
          omega
        refine ⟨o', p1, this, ?_⟩
        by_cases hc : qp.timestamp.toInt = -2
        · rw [o3 hc]; exact Nat.zero_le _
        · rcases hT with hT | hT | hT
          · exact absurd hT hc
          · exact absurd hT ha
          · rw [hz'] at p2
            exact timeOffset_mono (o4 hT.1 hc) p2 hT.2.2
  obtain ⟨o', p1, p2, p3⟩ := second
  rw [o1, p1, num o (by omega), num o' (by omega)]
  omega

/-- Requests for the end of the log and for the offset of a time. -/
def askWhen (T : I64) : Request := .listOffsets ⟨-1, [⟨[116], [⟨0, T⟩]⟩]⟩

/-- A client asks for the offset of time 5; then another record is posted. -/
def askedWhen : Sys := stateAfter (caller 1 (.simplePost [116] 0 none (some [3])) 6) (doneWith 0 7 (askWhen 5) 7 oneRecord)

set_option maxRecDepth 100000 in
set_option synthInstance.maxSize 1000 in
/-- The hypotheses of `C126_later`: the offset of time 5 is 1; then a record is posted; the end of the log is 2. -/
example : ∃ (t1 t2 tr tr' a : List SEv) (s1 s2 s3 s4 : Sys), Exchange ⟨9092, []⟩ 0 0 (askWhen 5) 7 t1 s1 tr s2 ∧ Sys.Run s2 a s3 ∧ Exchange ⟨9092, []⟩ 0 0 (askWhen (-1)) 8 t2 s3 tr' s4 ∧
    Client.response Client.listOffsets (sent (actsOf 0 tr)) = some ((7, ⟨[⟨[116], [⟨0, 0, 0, 1⟩]⟩]⟩), []) ∧
    (Client.response Client.listOffsets (sent (actsOf 0 tr'))).map (fun x => x.1.2.topics.map fun t => t.partitions.map (·.offset)) = some [[2]] := by
  obtain ⟨t0, h⟩ := oneRecord_run
  have e1 := exchange_of_play h 0 7 (askWhen 5) 7 (by unfold askWhen Request.WellFormed ShortList ShortStr; decide) (by decide +kernel)
  obtain ⟨⟨r1, q1⟩, _⟩ := doneWith_run h 0 7 (askWhen 5) 7 0 (askWhen 5) 8
  have q2 : Sys.Run (Sys.new ⟨9092, []⟩ 0) _ askedWhen := q1.append (stateAfter_run (caller 1 (.simplePost [116] 0 none (some [3])) 6) _)
  have e2 := exchange_of_play q2 0 7 (askWhen (-1)) 8 (by unfold askWhen Request.WellFormed ShortList ShortStr; decide) (by decide +kernel)
  exact ⟨_, _, _, _, _, _, _, _, _, e1, (stateAfter_run [.conn 0] _).append ((stateAfter_run (caller 1 (.simplePost [116] 0 none (some [3])) 6) _).append ((stateAfter_run (asks 0 _ 8) _).append (stateAfter_run [.conn 0] _))), e2,
    by decide +kernel, by decide +kernel⟩

end KM.Props
