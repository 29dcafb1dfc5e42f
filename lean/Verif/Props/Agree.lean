import Verif.Props.Tally
/-
Property C134: all consumers of a partition receive the same messages, in the same order.
-/
namespace KM.Props
open KM KM.Spec

/-- The same offset, key, value and timestamp. -/
def SameMessage (x y : MessageV1) : Prop := x.offset = y.offset ∧ x.key = y.key ∧ x.value = y.value ∧ x.timestamp = y.timestamp

/-- **C134**: two consumers (or one, that polls twice) have polled a partition, each from where it began and at its own pace. Wherever they have received messages with the same offset, the messages
are the same. -/
theorem C134_content {sv : Server} {clock : Int} {tr : List NEv} {n : Net} (h : Net.Run (Net.new sv clock) tr n) (hroom : ∀ t p, ∀ x ∈ (n.sys.view 0).log t p, wireSize x < 2 ^ 31)
    {t : Bytes} {p : I32} {first first' : I64} {ps ps' : List Poll} (hp : Polled tr t p first ps) (hp' : Polled tr t p first' ps')
    (hs : ∀ x ∈ ps ++ ps', SmallReplies sv (actsOf x.conn (mocks tr))) (h0 : 0 ≤ first.toInt) (h0' : 0 ≤ first'.toInt) (hlen : first.toInt + ((n.sys.view 0).log t p).length < 2 ^ 63)
    (hlen' : first'.toInt + ((n.sys.view 0).log t p).length < 2 ^ 63) : ∀ x ∈ pollMessages ps, ∀ y ∈ pollMessages ps', x.offset = y.offset → SameMessage x y := by
  obtain ⟨L, _⟩ := C109 h hroom hp (fun y hy => hs y (List.mem_append_left _ hy)) h0 hlen
  obtain ⟨L', _⟩ := C109 h hroom hp' (fun y hy => hs y (List.mem_append_right _ hy)) h0' hlen'
  have at_ : ∀ {first : I64} {ms : List MessageV1} {x : MessageV1}, 0 ≤ first.toInt → first.toInt + ((n.sys.view 0).log t p).length < 2 ^ 63 →
      Labelled first.toInt (slice ((n.sys.view 0).log t p) first.toInt ms.length) ms → x ∈ ms →
      ∃ i : Nat, i < 2 ^ 63 ∧ x.offset = BitVec.ofNat 64 i ∧ ∃ r, ((n.sys.view 0).log t p)[i]? = some r ∧ x.key = r.key ∧ x.value = r.value ∧ x.timestamp = r.timestamp := by
    intro first ms x h0 hl L hx
    obtain ⟨i, hi⟩ := List.getElem?_of_mem hx
    have hlt := (List.getElem?_eq_some_iff.1 hi).1
    have hsl := L.1
    unfold slice at hsl
    rw [List.length_take, List.length_drop] at hsl
    have hrec : first.toInt.toNat + i < ((n.sys.view 0).log t p).length := by omega
    obtain ⟨l1, l2, l3, l4, _⟩ := L.2 i _ x (by
      unfold slice
      rw [List.getElem?_take_of_lt hlt, List.getElem?_drop]
      exact List.getElem?_eq_getElem hrec) hi
    refine ⟨first.toInt.toNat + i, by omega, ?_, _, List.getElem?_eq_getElem hrec, l3, l4, l2⟩
    rw [l1, show first.toInt + (i : Int) = ((first.toInt.toNat + i : Nat) : Int) by omega]
    exact BitVec.ofInt_natCast _ _
  intro x hx y hy hxy
  obtain ⟨i, i1, i2, r, i3, i4⟩ := at_ h0 hlen L hx
  obtain ⟨j, j1, j2, r', j3, j4⟩ := at_ h0' hlen' L' hy
  rw [i2, j2] at hxy
  have := congrArg BitVec.toNat hxy
  rw [BitVec.toNat_ofNat, BitVec.toNat_ofNat, Nat.mod_eq_of_lt (by omega), Nat.mod_eq_of_lt (by omega)] at this
  subst this
  rw [i3] at j3; cases j3
  exact ⟨i2.trans j2.symm, i4.1.trans j4.1.symm, i4.2.1.trans j4.2.1.symm, i4.2.2.trans j4.2.2.symm⟩

/-- **C134**, order: of two consumers that began at the same offset, the one that has received less has received what the other one received first, in the same order. -/
theorem C134_order {sv : Server} {clock : Int} {tr : List NEv} {n : Net} (h : Net.Run (Net.new sv clock) tr n) (hroom : ∀ t p, ∀ x ∈ (n.sys.view 0).log t p, wireSize x < 2 ^ 31)
    {t : Bytes} {p : I32} {first : I64} {ps ps' : List Poll} (hp : Polled tr t p first ps) (hp' : Polled tr t p first ps')
    (hs : ∀ x ∈ ps ++ ps', SmallReplies sv (actsOf x.conn (mocks tr))) (h0 : 0 ≤ first.toInt) (hlen : first.toInt + ((n.sys.view 0).log t p).length < 2 ^ 63)
    (hle : (pollMessages ps).length ≤ (pollMessages ps').length) : List.Forall₂ SameMessage (pollMessages ps) ((pollMessages ps').take (pollMessages ps).length) := by
  obtain ⟨L, _⟩ := C109 h hroom hp (fun y hy => hs y (List.mem_append_left _ hy)) h0 hlen
  obtain ⟨L', _⟩ := C109 h hroom hp' (fun y hy => hs y (List.mem_append_right _ hy)) h0 hlen
  refine forall₂_of_getElem? (by rw [List.length_take, Nat.min_eq_left hle]) ?_
  intro i x y hx hy
  have hlt := (List.getElem?_eq_some_iff.1 hx).1
  rw [List.getElem?_take_of_lt hlt] at hy
  have hlt' := (List.getElem?_eq_some_iff.1 hy).1
  have hsl := L.1
  unfold slice at hsl
  rw [List.length_take, List.length_drop] at hsl
  have hrec : first.toInt.toNat + i < ((n.sys.view 0).log t p).length := by omega
  have look : ∀ k, i < k → (slice ((n.sys.view 0).log t p) first.toInt k)[i]? = some ((n.sys.view 0).log t p)[first.toInt.toNat + i] := fun k hk => by
    unfold slice
    rw [List.getElem?_take_of_lt hk, List.getElem?_drop]
    exact List.getElem?_eq_getElem hrec
  obtain ⟨l1, l2, l3, l4, _⟩ := L.2 i _ x (look _ hlt) hx
  obtain ⟨k1, k2, k3, k4, _⟩ := L'.2 i _ y (look _ hlt') hy
  exact ⟨l1.trans k1.symm, l3.trans k3.symm, l4.trans k4.symm, l2.trans k2.symm⟩

end KM.Props
