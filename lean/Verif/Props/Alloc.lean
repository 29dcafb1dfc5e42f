import Verif.Alloc
import Verif.Codec.Locality
import Verif.Trace
import Verif.Props.Group
/-
C77: the memory reserved for a request is in proportion to the request.
-/
namespace KM.Props
open KM Spec

/-- The number of fields. -/
def count : Fields → Nat
  | .nil => 0
  | .cons _ _ _ rest => count rest + 1

mutual
/-- Every value of the type takes at least one byte. -/
def solid : Ty → Bool
  | .slice e | .array e => solid e
  | .struct fs => solidFields fs && decide (count fs ≠ 0)
  | .ptr t => solid t
  | _ => true
def solidFields : Fields → Bool
  | .nil => true
  | .cons _ _ t rest => solid t && solidFields rest
end

mutual
/-- How deep arrays are nested in the type. -/
def depth : Ty → Nat
  | .slice e | .array e => depth e + 1
  | .bytes | .compactBytes => 1
  | .struct fs => depthFields fs
  | .ptr t => depth t
  | _ => 0
def depthFields : Fields → Nat
  | .nil => 0
  | .cons _ _ t rest => max (depth t) (depthFields rest)
end

/-- How many elements room is reserved for. -/
def elems (l : List Reserve) : Nat := (l.map (·.count)).sum

theorem elems_append (a b : List Reserve) : elems (a ++ b) = elems a + elems b := by simp [elems]
theorem elems_cons (x : Reserve) (b : List Reserve) : elems (x :: b) = x.count + elems b := by simp [elems]
theorem elems_nil : elems [] = 0 := rfl

theorem any_nil {off W d : Nat} (h : off ≤ W) : off + elems [] ≤ W + d := Nat.le_trans h (Nat.le_add_right _ _)

theorem fixed_next {r : Reader} {off len n : Nat} {v : Bytes} (h : peekFixedData r off len = .ok n v) : n = off + len := by
  unfold peekFixedData at h
  dsimp only at h
  split at h
  · cases h
  · cases h; rfl

theorem map_ok_inv {α β : Type} {f : α → β} {x : Res α} {n : Nat} {v : β} (h : x.map f = .ok n v) : ∃ u, x = .ok n u ∧ v = f u := by
  cases x with
  | short => cases h
  | panic => cases h
  | ok m u => simp only [Res.map_ok, Res.ok.injEq] at h; exact ⟨u, by rw [h.1], h.2.symm⟩

theorem bind_ok_inv {α β : Type} {f : Nat → α → Res β} {x : Res α} {n : Nat} {v : β} (h : x.bind f = .ok n v) : ∃ m u, x = .ok m u ∧ f m u = .ok n v := by
  cases x with
  | short => cases h
  | panic => cases h
  | ok m u => exact ⟨m, u, rfl, h⟩

theorem int32_next {r : Reader} {off n : Nat} {v : I32} (h : peekInt32 r off = .ok n v) : n = off + 4 := by
  obtain ⟨_, h, _⟩ := map_ok_inv h; exact fixed_next h

theorem varuint_next {r : Reader} {off n : Nat} {v : BitVec 32} (h : peekVarUint r off = .ok n v) : off + 1 ≤ n :=
  (peekVarULoop_ge _ _ _ _ h).1

theorem varuint64_next {r : Reader} {off n : Nat} {v : BitVec 64} (h : peekVarUint64 r off = .ok n v) : off + 1 ≤ n :=
  (peekVarULoop_ge _ _ _ _ h).1

theorem varint_next {r : Reader} {off n : Nat} {v : BitVec 32} (h : peekVarInt r off = .ok n v) : off + 1 ≤ n := by
  obtain ⟨_, h, _⟩ := map_ok_inv h; exact varuint_next h

theorem data16_next {r : Reader} {off n : Nat} {v : Option Bytes} (h : peekNullableData16 r off = .ok n v) : off + 1 ≤ n := by
  rw [peekNullableData16_eq] at h
  obtain ⟨m, c, h1, h⟩ := bind_ok_inv h
  obtain ⟨_, h1, _⟩ := map_ok_inv h1
  have := fixed_next h1
  split at h
  · cases h; omega
  · obtain ⟨_, h, _⟩ := map_ok_inv h
    have := fixed_next h
    omega

theorem compactBytes_next {r : Reader} {off n : Nat} {v : Option Bytes} (h : peekCompactNullableBytes r off = .ok n v) : off + 1 ≤ n := by
  rw [peekCompactNullableBytes_eq] at h
  obtain ⟨m, c, h1, h⟩ := bind_ok_inv h
  have := varint_next h1
  split at h
  · cases h; omega
  · obtain ⟨_, h, _⟩ := map_ok_inv h
    have := fixed_next h
    omega

theorem nullableBytes_next {r : Reader} {off n : Nat} {v : Option Bytes} (h : peekNullableBytes r off = .ok n v) : off + 1 ≤ n := by
  rw [peekNullableBytes_eq] at h
  obtain ⟨m, c, h1, h⟩ := bind_ok_inv h
  have := int32_next h1
  split at h
  · cases h; omega
  · obtain ⟨_, h, _⟩ := map_ok_inv h
    have := fixed_next h
    omega

/-- What is reserved while a value is read from `off`: if it is read to the end, no more elements than there are bytes, with `e` to spare; in any case no more
than there are bytes left, apart from `d` arrays. -/
structure Fits (r : Reader) (d e off : Nat) {α : Type} (x : Res α) (l : List Reserve) : Prop where
  le : ∀ n v, x = .ok n v → off ≤ r.window.length → n ≤ r.window.length
  done : ∀ n v, x = .ok n v → off + elems l + e ≤ n
  any : off ≤ r.window.length → off + elems l ≤ r.window.length + d * 2147483647

theorem Fits.leaf {r : Reader} {d off : Nat} {α : Type} {x : Res α} (hl : ∀ n v, x = .ok n v → off ≤ r.window.length → n ≤ r.window.length)
    (h : ∀ n v, x = .ok n v → off + 1 ≤ n) : Fits r d 1 off x [] :=
  ⟨hl, h, any_nil⟩

theorem Fits.map {r : Reader} {d e off : Nat} {α β : Type} {x : Res α} {l : List Reserve} (f : α → β) (h : Fits r d e off x l) : Fits r d e off (x.map f) l :=
  ⟨fun n v hv => by obtain ⟨u, hu, _⟩ := map_ok_inv hv; exact h.le n u hu, fun n v hv => by obtain ⟨u, hu, _⟩ := map_ok_inv hv; exact h.done n u hu, h.any⟩

theorem Fits.mono {r : Reader} {d d' e e' off : Nat} {α : Type} {x : Res α} {l : List Reserve} (h : Fits r d e off x l) (hd : d ≤ d') (he : e' ≤ e) : Fits r d' e' off x l :=
  ⟨h.le, fun n v hv => by have := h.done n v hv; omega, fun ho => Nat.le_trans (h.any ho) (Nat.add_le_add_left (Nat.mul_le_mul_right _ hd) _)⟩

theorem fits_items {r : Reader} {d : Nat} {α : Type} {f : Nat → Res (Option α)} {g : Nat → List Reserve} (hf : ∀ o, Fits r d 1 o (f o) (g o)) (asg : Bool) (k off : Nat) :
    Fits r d k off (peekItems f asg k off) (reserveItems f g asg k off) := by
  induction k generalizing off with
  | zero => exact ⟨fun n v h ho => by cases h; exact ho, fun n v h => by cases h; simp [reserveItems, elems_nil], any_nil⟩
  | succ k ih =>
    have h1 := hf off
    simp only [peekItems, reserveItems]
    cases hx : f off with
    | short => exact ⟨nofun, nofun, by simpa [elems_append, elems_nil] using h1.any⟩
    | panic => exact ⟨nofun, nofun, by simpa [elems_append, elems_nil] using h1.any⟩
    | ok m u =>
      cases u with
      | none => exact ⟨nofun, nofun, by simpa [elems_append, elems_nil] using h1.any⟩
      | some u =>
        simp only [Res.bind_ok]
        split
        · have h2 := ih m
          have h3 := h1.done m _ hx
          refine ⟨fun n v hv ho => ?_, fun n v hv => ?_, fun ho => ?_⟩
          · obtain ⟨_, hv, _⟩ := map_ok_inv hv
            exact h2.le n _ hv (h1.le m _ hx ho)
          · obtain ⟨_, hv, _⟩ := map_ok_inv hv
            have := h2.done n _ hv
            rw [elems_append]; omega
          · have := h2.any (h1.le m _ hx ho)
            rw [elems_append]; omega
        · exact ⟨nofun, nofun, by simpa [elems_append, elems_nil] using h1.any⟩

theorem fits_fixed {r : Reader} {d : Nat} {α : Type} {f : Nat → Res (Option α)} {g : Nat → List Reserve} (hf : ∀ o, Fits r d 1 o (f o) (g o)) (size : Nat) (asg : Bool) (off : Nat)
    {len : Int} (hlen : len < 2 ^ 31) : Fits r (d + 1) 0 off (peekObjectFixedArray f asg off len) (reserveFixedArray f g size asg off len) := by
  unfold peekObjectFixedArray reserveFixedArray
  split
  · have h := fits_items hf asg len.toNat off
    refine ⟨(h.map some).le, fun n v hv => ?_, fun ho => ?_⟩
    · have := (h.map some).done n v hv
      rw [elems_cons]
      dsimp only; omega
    · have := h.any ho
      rw [elems_cons, Nat.add_mul]
      dsimp only; omega
  · exact ⟨fun n v h ho => by cases h; exact ho, fun n v h => by cases h; simp [elems_nil], any_nil⟩

theorem Fits.after {r : Reader} {d e off m : Nat} {α : Type} {x : Res α} {l : List Reserve} (h : Fits r d e m x l) (hm : off + 1 ≤ m)
    (hl : off ≤ r.window.length → m ≤ r.window.length) : Fits r d 1 off x l :=
  ⟨fun n v hv ho => h.le n v hv (hl ho), fun n v hv => by have := h.done n v hv; omega, fun ho => by have := h.any (hl ho); omega⟩

theorem fits_var {r : Reader} {d : Nat} {α : Type} {f : Nat → Res (Option α)} {g : Nat → List Reserve} (hf : ∀ o, Fits r d 1 o (f o) (g o)) (size : Nat) (asg : Bool) (off : Nat) :
    Fits r (d + 1) 1 off (peekObjectVarArray f asg r off) (reserveVarArray f g size asg r off) := by
  unfold peekObjectVarArray reserveVarArray
  cases hx : peekInt32 r off with
  | short => exact ⟨nofun, nofun, any_nil⟩
  | panic => exact ⟨nofun, nofun, any_nil⟩
  | ok m v =>
    have := int32_next hx
    exact (fits_fixed hf size asg m (by have := v.toInt_lt; omega)).after (by omega) ((local_peekInt32 off).le r m v hx)

theorem fits_compact {r : Reader} {d : Nat} {α : Type} {f : Nat → Res (Option α)} {g : Nat → List Reserve} (hf : ∀ o, Fits r d 1 o (f o) (g o)) (size : Nat) (asg : Bool) (off : Nat) :
    Fits r (d + 1) 1 off (peekObjectCompactVarArray f asg r off) (reserveCompactVarArray f g size asg r off) := by
  unfold peekObjectCompactVarArray reserveCompactVarArray
  cases hx : peekVarInt r off with
  | short => exact ⟨nofun, nofun, any_nil⟩
  | panic => exact ⟨nofun, nofun, any_nil⟩
  | ok m v =>
    have h1 := varint_next hx
    have h2 := (local_peekVarInt off).le r m v hx
    simp only [Res.bind_ok]
    split
    · exact ⟨fun n v h ho => by cases h; exact h2 ho, fun n v h => by cases h; simp only [elems_nil]; omega, any_nil⟩
    · exact (fits_fixed hf size asg m (by have := (v - 1).toInt_lt; omega)).after h1 h2

theorem fits_uint8 (r : Reader) (d o : Nat) : Fits r d 1 o ((peekUint8 r o).map some) [] :=
  (Fits.leaf ((local_peekUint8 o).le r) fun n v h => by obtain ⟨_, h, _⟩ := map_ok_inv h; have := fixed_next h; omega).map some

theorem fits_data {r : Reader} {d o k : Nat} {α : Type} (hk : 1 ≤ k) (f : Bytes → α) : Fits r d 1 o ((peekFixedData r o k).map f) [] :=
  (Fits.leaf ((local_peekFixedData o k).le r) fun n v h => by have := fixed_next h; omega).map f

mutual
theorem fits_worker : (t : Ty) → (hs : solid t = true) → (r : Reader) → (off : Nat) → (nullable compact : Bool) →
    Fits r (depth t) 1 off (peekObjectWorker t r off nullable compact) (reserveWorker t r off compact)
  | .bool, _, r, off, _, _ => by unfold peekObjectWorker reserveWorker; exact (fits_data (by decide) _).map _
  | .int8, _, r, off, _, _ => by unfold peekObjectWorker reserveWorker; exact (fits_data (by decide) _).map _
  | .int16, _, r, off, _, _ => by unfold peekObjectWorker reserveWorker; exact (fits_data (by decide) _).map _
  | .varInt, _, r, off, _, _ => by
    unfold peekObjectWorker reserveWorker; exact (Fits.leaf ((local_peekVarInt off).le r) fun n v h => varint_next h).map _
  | .int32, _, r, off, _, _ => by unfold peekObjectWorker reserveWorker; exact (fits_data (by decide) _).map _
  | .int, _, r, off, _, _ => by unfold peekObjectWorker reserveWorker; exact (fits_data (by decide) _).map _
  | .varInt64, _, r, off, _, _ => by
    unfold peekObjectWorker reserveWorker
    exact (Fits.leaf ((local_peekVarInt64 off).le r) fun n v h => by obtain ⟨_, h, _⟩ := map_ok_inv h; exact varuint64_next h).map _
  | .int64, _, r, off, _, _ => by unfold peekObjectWorker reserveWorker; exact (fits_data (by decide) _).map _
  | .uint, _, r, off, _, _ => by unfold peekObjectWorker reserveWorker; exact (fits_data (by decide) _).map _
  | .uint8, _, r, off, _, _ => by unfold peekObjectWorker reserveWorker; exact (fits_data (by decide) _).map _
  | .uint16, _, r, off, _, _ => by unfold peekObjectWorker reserveWorker; exact (fits_data (by decide) _).map _
  | .varUint, _, r, off, _, _ => by
    unfold peekObjectWorker reserveWorker; exact (Fits.leaf ((local_peekVarUint off).le r) fun n v h => varuint_next h).map _
  | .uint32, _, r, off, _, _ => by unfold peekObjectWorker reserveWorker; exact (fits_data (by decide) _).map _
  | .varUint64, _, r, off, _, _ => by
    unfold peekObjectWorker reserveWorker; exact (Fits.leaf ((local_peekVarUint64 off).le r) fun n v h => varuint64_next h).map _
  | .uint64, _, r, off, _, _ => by unfold peekObjectWorker reserveWorker; exact (fits_data (by decide) _).map _
  | .float64, _, r, off, _, _ => by unfold peekObjectWorker reserveWorker; exact (fits_data (by decide) _).map _
  | .uuid, _, r, off, _, _ => by
    unfold peekObjectWorker reserveWorker
    have hl := (local_peekFixedData off 16).le r
    cases hx : peekFixedData r off 16 with
    | short => exact ⟨nofun, nofun, any_nil⟩
    | panic => exact ⟨nofun, nofun, any_nil⟩
    | ok m v =>
      have := fixed_next hx
      simp only [Res.bind_ok]
      split
      · exact ⟨fun n v h ho => by cases h; exact hl _ _ hx ho, fun n v h => by cases h; simp only [elems_nil]; omega, any_nil⟩
      · exact ⟨nofun, nofun, any_nil⟩
  | .array e, hs, r, off, _, _ => by
    unfold peekObjectWorker reserveWorker
    exact (fits_compact (fun o => fits_worker e (by simpa [solid] using hs) r o false false) e.goSize e.assignable off).map _
  | .nullableBytes, _, r, off, _, _ => by
    unfold peekObjectWorker reserveWorker; exact (Fits.leaf ((local_peekNullableBytes off).le r) fun n v h => nullableBytes_next h).map _
  | .compactNullableBytes, _, r, off, _, _ => by
    unfold peekObjectWorker reserveWorker; exact (Fits.leaf ((local_peekCompactNullableBytes off).le r) fun n v h => compactBytes_next h).map _
  | .bytes, _, r, off, _, compact => by
    unfold peekObjectWorker reserveWorker
    cases compact
    · exact (fits_var (fun o => fits_uint8 r 0 o) 1 true off).map _
    · exact (fits_compact (fun o => fits_uint8 r 0 o) 1 true off).map _
  | .compactBytes, _, r, off, _, compact => by
    unfold peekObjectWorker reserveWorker
    cases compact
    · exact (fits_var (fun o => fits_uint8 r 0 o) 1 true off).map _
    · exact (fits_compact (fun o => fits_uint8 r 0 o) 1 true off).map _
  | .slice e, hs, r, off, _, compact => by
    unfold peekObjectWorker reserveWorker
    have hs : solid e = true := by simpa [solid] using hs
    cases compact
    · exact (fits_var (fun o => fits_worker e hs r o false false) e.goSize e.assignable off).map _
    · exact (fits_compact (fun o => fits_worker e hs r o false false) e.goSize e.assignable off).map _
  | .compactString, _, r, off, _, _ => by
    unfold peekObjectWorker reserveWorker; exact (Fits.leaf ((local_peekCompactNullableBytes off).le r) fun n v h => compactBytes_next h).map _
  | .string, _, r, off, _, _ => by
    unfold peekObjectWorker reserveWorker; exact (Fits.leaf ((local_peekNullableData16 off).le r) fun n v h => data16_next h).map _
  | .struct fs, hs, r, off, _, _ => by
    unfold peekObjectWorker reserveWorker
    exact ((fits_struct fs (by simp [solid] at hs; exact hs.1) r off).mono (Nat.le_refl _) (by simp [solid] at hs; omega)).map _
  | .compactNullableString, _, r, off, _, _ => by
    unfold peekObjectWorker reserveWorker; exact (Fits.leaf ((local_peekCompactNullableBytes off).le r) fun n v h => compactBytes_next h).map _
  | .nullableString, _, r, off, _, _ => by
    unfold peekObjectWorker reserveWorker; exact (Fits.leaf ((local_peekNullableData16 off).le r) fun n v h => data16_next h).map _
  | .ptr t, hs, r, off, _, _ => by
    unfold peekObjectWorker reserveWorker
    cases t with
    | struct fs =>
      exact ((fits_struct fs (by simp [solid] at hs; exact hs.1) r off).mono (Nat.le_refl _) (by simp [solid] at hs; omega)).map _
    | _ => exact ⟨nofun, nofun, any_nil⟩
  | .messageSetV1, _, r, off, _, _ => by
    unfold peekObjectWorker reserveWorker
    exact ⟨nofun, nofun, any_nil⟩
theorem fits_struct : (fs : Fields) → (hs : solidFields fs = true) → (r : Reader) → (off : Nat) →
    Fits r (depthFields fs) (count fs) off (peekObjectStruct fs r off) (reserveStruct fs r off)
  | .nil, _, r, off => by
    unfold peekObjectStruct reserveStruct
    exact ⟨fun n v h ho => by cases h; exact ho, fun n v h => by cases h; simp [elems_nil, count], any_nil⟩
  | .cons _ tag t rest, hs, r, off => by
    unfold peekObjectStruct reserveStruct
    have hs : solid t = true ∧ solidFields rest = true := by simpa [solidFields] using hs
    have h1 := (fits_worker t hs.1 r off (kafkaTags tag).1 (kafkaTags tag).2).mono (Nat.le_max_left (depth t) (depthFields rest)) (Nat.le_refl _)
    generalize peekObjectWorker t r off (kafkaTags tag).1 (kafkaTags tag).2 = x at h1
    generalize reserveWorker t r off (kafkaTags tag).2 = l at h1
    simp only [depthFields, count]
    cases x with
    | short => exact ⟨nofun, nofun, by simpa [elems_append, elems_nil] using h1.any⟩
    | panic => exact ⟨nofun, nofun, by simpa [elems_append, elems_nil] using h1.any⟩
    | ok m u =>
      cases u with
      | none => exact ⟨nofun, nofun, by simpa [elems_append, elems_nil] using h1.any⟩
      | some u =>
        simp only [Res.bind_ok]
        split
        · have h2 := (fits_struct rest hs.2 r m).mono (Nat.le_max_right (depth t) (depthFields rest)) (Nat.le_refl _)
          have h3 := h1.done m _ rfl
          refine ⟨fun n v hv ho => ?_, fun n v hv => ?_, fun ho => ?_⟩
          · obtain ⟨_, hv, _⟩ := map_ok_inv hv
            exact h2.le n _ hv (h1.le m _ rfl ho)
          · obtain ⟨_, hv, _⟩ := map_ok_inv hv
            have := h2.done n _ hv
            rw [elems_append]; omega
          · have := h2.any (h1.le m _ rfl ho)
            rw [elems_append]; omega
        · exact ⟨nofun, nofun, by simpa [elems_append, elems_nil] using h1.any⟩
end

/-! ### Sizes -/

mutual
/-- The size of the largest array element in the type. -/
def largest : Ty → Nat
  | .slice e | .array e => max e.goSize (largest e)
  | .bytes | .compactBytes => 1
  | .struct fs => largestFields fs
  | .ptr t => largest t
  | _ => 0
def largestFields : Fields → Nat
  | .nil => 0
  | .cons _ _ t rest => max (largest t) (largestFields rest)
end

theorem size_items {α : Type} {f : Nat → Res (Option α)} {g : Nat → List Reserve} {B : Nat} (hg : ∀ o, ∀ x ∈ g o, x.size ≤ B) (asg : Bool) (k off : Nat) :
    ∀ x ∈ reserveItems f g asg k off, x.size ≤ B := by
  induction k generalizing off with
  | zero => simp [reserveItems]
  | succ k ih =>
    intro x hx
    simp only [reserveItems, List.mem_append] at hx
    rcases hx with hx | hx
    · exact hg _ _ hx
    · split at hx
      · split at hx
        · exact ih _ _ hx
        · cases hx
      · cases hx

theorem size_fixed {α : Type} {f : Nat → Res (Option α)} {g : Nat → List Reserve} {B size : Nat} (hg : ∀ o, ∀ x ∈ g o, x.size ≤ B) (hs : size ≤ B) (asg : Bool) (off : Nat) (len : Int) :
    ∀ x ∈ reserveFixedArray f g size asg off len, x.size ≤ B := by
  intro x hx
  unfold reserveFixedArray at hx
  split at hx
  · rcases List.mem_cons.1 hx with rfl | hx
    · exact hs
    · exact size_items hg asg _ _ x hx
  · cases hx

theorem size_var {α : Type} {f : Nat → Res (Option α)} {g : Nat → List Reserve} {B size : Nat} (hg : ∀ o, ∀ x ∈ g o, x.size ≤ B) (hs : size ≤ B) (asg : Bool) (r : Reader) (off : Nat) :
    ∀ x ∈ reserveVarArray f g size asg r off, x.size ≤ B := by
  intro x hx
  unfold reserveVarArray at hx
  split at hx
  · exact size_fixed hg hs asg _ _ x hx
  · cases hx

theorem size_compact {α : Type} {f : Nat → Res (Option α)} {g : Nat → List Reserve} {B size : Nat} (hg : ∀ o, ∀ x ∈ g o, x.size ≤ B) (hs : size ≤ B) (asg : Bool) (r : Reader)
    (off : Nat) : ∀ x ∈ reserveCompactVarArray f g size asg r off, x.size ≤ B := by
  intro x hx
  unfold reserveCompactVarArray at hx
  split at hx
  · split at hx
    · cases hx
    · exact size_fixed hg hs asg _ _ x hx
  · cases hx

mutual
theorem size_worker : (t : Ty) → (B : Nat) → (hB : largest t ≤ B) → (r : Reader) → (off : Nat) → (compact : Bool) → ∀ x ∈ reserveWorker t r off compact, x.size ≤ B
  | .array e, B, hB, r, off, _ => by
    unfold reserveWorker
    simp only [largest] at hB
    exact size_compact (fun o => size_worker e B (by omega) r o false) (by omega) _ _ _
  | .slice e, B, hB, r, off, compact => by
    unfold reserveWorker
    simp only [largest] at hB
    cases compact
    · exact size_var (fun o => size_worker e B (by omega) r o false) (by omega) _ _ _
    · exact size_compact (fun o => size_worker e B (by omega) r o false) (by omega) _ _ _
  | .bytes, B, hB, r, off, compact => by
    unfold reserveWorker
    simp only [largest] at hB
    cases compact
    · exact size_var (fun _ _ h => by cases h) hB _ _ _
    · exact size_compact (fun _ _ h => by cases h) hB _ _ _
  | .compactBytes, B, hB, r, off, compact => by
    unfold reserveWorker
    simp only [largest] at hB
    cases compact
    · exact size_var (fun _ _ h => by cases h) hB _ _ _
    · exact size_compact (fun _ _ h => by cases h) hB _ _ _
  | .struct fs, B, hB, r, off, _ => by
    unfold reserveWorker
    exact size_struct fs B (by simpa [largest] using hB) r off
  | .ptr t, B, hB, r, off, _ => by
    unfold reserveWorker
    cases t with
    | struct fs => exact size_struct fs B (by simpa [largest] using hB) r off
    | _ => nofun
  | .bool, _, _, _, _, _ | .int8, _, _, _, _, _ | .int16, _, _, _, _, _ | .int32, _, _, _, _, _ | .int, _, _, _, _, _ | .int64, _, _, _, _, _
  | .uint8, _, _, _, _, _ | .uint16, _, _, _, _, _ | .uint32, _, _, _, _, _ | .uint, _, _, _, _, _ | .uint64, _, _, _, _, _ | .float64, _, _, _, _, _
  | .varInt, _, _, _, _, _ | .varUint, _, _, _, _, _ | .varInt64, _, _, _, _, _ | .varUint64, _, _, _, _, _ | .uuid, _, _, _, _, _
  | .string, _, _, _, _, _ | .compactString, _, _, _, _, _ | .nullableString, _, _, _, _, _ | .compactNullableString, _, _, _, _, _
  | .nullableBytes, _, _, _, _, _ | .compactNullableBytes, _, _, _, _, _ | .messageSetV1, _, _, _, _, _ => by unfold reserveWorker; nofun
theorem size_struct : (fs : Fields) → (B : Nat) → (hB : largestFields fs ≤ B) → (r : Reader) → (off : Nat) → ∀ x ∈ reserveStruct fs r off, x.size ≤ B
  | .nil, _, _, _, _ => by unfold reserveStruct; nofun
  | .cons _ tag t rest, B, hB, r, off => by
    unfold reserveStruct
    simp only [largestFields] at hB
    intro x hx
    rcases List.mem_append.1 hx with hx | hx
    · exact size_worker t B (by omega) r off _ x hx
    · split at hx
      · split at hx
        · exact size_struct rest B (by omega) r _ x hx
        · cases hx
      · cases hx
end

/-- The bytes reserved. -/
def reservedBytes (r : Reader) : Nat := ((reserved r).map Reserve.bytes).sum

theorem bytes_le {l : List Reserve} {B : Nat} (h : ∀ x ∈ l, x.size ≤ B) : (l.map Reserve.bytes).sum ≤ B * elems l := by
  induction l with
  | nil => simp
  | cons x l ih =>
    have h1 := ih fun y hy => h y (List.mem_cons_of_mem _ hy)
    have h2 := Nat.mul_le_mul_left x.count (h x List.mem_cons_self)
    rw [List.map_cons, List.sum_cons, elems_cons, Nat.mul_add, Nat.mul_comm B]
    exact Nat.add_le_add h2 h1

/-- Each handler reads the request type listed for it. -/
theorem handler_reads (sv : Server) (api : Api) (r : Reader) : api = .apiVersions ∨ ∃ k, api.handler sv r = withRequest api.fields r k := by
  cases api <;> first | exact .inl rfl | exact .inr ⟨_, rfl⟩

theorem api_fits (api : Api) : solidFields api.fields = true ∧ depthFields api.fields ≤ 2 ∧ largestFields api.fields ≤ 40 := by
  cases api <;> decide

theorem peekObject_struct (fs : Fields) (r : Reader) : peekObject (.struct fs) r 0 = (peekObjectStruct fs r 0).map some := by
  unfold peekObject; rw [peekObjectWorker]

theorem readRequest_err {fs : Fields} {r : Reader} (h : ∀ n v, peekObjectStruct fs r 0 ≠ .ok n v) : readRequest fs r = .err ∨ readRequest fs r = .panic := by
  unfold readRequest
  rw [peekObject_struct]
  cases hx : peekObjectStruct fs r 0 with
  | short => exact .inl rfl
  | panic => exact .inr rfl
  | ok n v => exact absurd hx (h n v)

theorem peekString_le {r : Reader} {off n : Nat} {v : Bytes} (h : peekString r off = .ok n v) (ho : off ≤ r.window.length) : n ≤ r.window.length := by
  obtain ⟨_, h, _⟩ := map_ok_inv h
  exact (local_peekObject .string off).le r n _ h ho

theorem window_le (r : Reader) : r.window.length ≤ r.rest.length := by
  unfold Reader.window; rw [List.length_take]; omega

theorem reserveStruct_elems {fs : Fields} {r : Reader} (hs : solidFields fs = true) : elems (reserveStruct fs r 0) ≤ r.window.length + depthFields fs * 2147483647 := by
  have := (fits_struct fs hs r 0).any (Nat.zero_le _); omega

theorem reserveStruct_done {fs : Fields} {r : Reader} (hs : solidFields fs = true) {n : Nat} {v : fs.den} (h : peekObjectStruct fs r 0 = .ok n v) :
    elems (reserveStruct fs r 0) ≤ r.window.length := by
  have := (fits_struct fs hs r 0).done n v h
  have := (fits_struct fs hs r 0).le n v h (Nat.zero_le _)
  omega

/-- **C77**, partial: for a request that is accepted, the room reserved for arrays is at most 40 bytes per byte of the request. -/
theorem C77_accepted_partial {sv : Server} {m : Bytes} {n : Nat} {w w' : World} {tr : List Ev} (h : Exec w (dispatcher sv ⟨m⟩ n) tr w' (.ret .done)) :
    reservedBytes ⟨m⟩ ≤ 40 * m.length := by
  unfold reservedBytes reserved
  unfold dispatcher at h
  cases hx : peekObject (.struct headerFields) ⟨m⟩ 0 with
  | short => simp
  | panic => simp
  | ok n1 hdr =>
    rw [hx] at h
    dsimp only at h ⊢
    generalize hdr.getD (0, 0, 0, ()) = hd at h ⊢
    obtain ⟨k, v, c, u⟩ := hd
    dsimp only at h ⊢
    cases hy : peekString ⟨m⟩ n1 with
    | short => simp
    | panic => simp
    | ok n2 s =>
      rw [hy] at h
      dsimp only at h ⊢
      cases hz : GoMap.get apiTable (makeApiKey k.toInt v.toInt) with
      | none => simp
      | some api =>
        rw [hz] at h
        dsimp only at h ⊢
        obtain ⟨a1, a2, a3⟩ := api_fits api
        refine Nat.le_trans (bytes_le (size_struct _ 40 a3 _ _)) (Nat.mul_le_mul_left 40 ?_)
        rcases handler_reads sv api (Reader.discard ⟨m⟩ n2) with rfl | ⟨f, hf⟩
        · simp [Api.fields, reserveStruct, elems_nil]
        · rw [hf] at h
          have hok : ∃ n v, peekObjectStruct api.fields (Reader.discard ⟨m⟩ n2) 0 = .ok n v := by
            apply Classical.byContradiction
            intro hn
            obtain ⟨_, _, _, u, g1, g2, _⟩ := exec_bind_ret h
            unfold withRequest at g1
            rcases readRequest_err (fun n v hv => hn ⟨n, v, hv⟩) with e | e <;> rw [e] at g1
            · obtain ⟨e, _⟩ := exec_ret_inv g1; cases e
              obtain ⟨e, _⟩ := exec_ret_inv g2; cases e
            · obtain ⟨e, _⟩ := exec_panic_inv g1; cases e
          obtain ⟨_, _, hok⟩ := hok
          have := reserveStruct_done a1 hok
          have := window_le (Reader.discard ⟨m⟩ n2)
          have : (Reader.discard ⟨m⟩ n2).rest.length ≤ m.length := by simp [Reader.discard]
          omega

/-- **C77**, partial: whatever the bytes, the room reserved for arrays is bounded; a request can announce two nested arrays of the largest length that are not there. -/
theorem C77_bounded_partial (m : Bytes) : reservedBytes ⟨m⟩ ≤ 40 * (4096 + 2 * (2 ^ 31 - 1)) := by
  unfold reservedBytes reserved
  have key : ∀ (api : Api) (r : Reader), ((reserveStruct api.fields r 0).map Reserve.bytes).sum ≤ 40 * (4096 + 2 * (2 ^ 31 - 1)) := by
    intro api r
    obtain ⟨a1, a2, a3⟩ := api_fits api
    refine Nat.le_trans (bytes_le (size_struct _ 40 a3 _ _)) (Nat.mul_le_mul_left 40 ?_)
    refine Nat.le_trans (reserveStruct_elems a1) ?_
    exact Nat.add_le_add (Reader.window_length _) (Nat.mul_le_mul_right _ a2)
  split
  · split
    split
    · split
      · exact key _ _
      · exact Nat.zero_le _
    · exact Nat.zero_le _
  · exact Nat.zero_le _

/-- **C77** is false: 14 bytes, a Metadata request for 2^31-1 topics none of which follows, make the mock reserve almost 32 GiB (and then panic, C75). -/
theorem C77_false : ∃ m : Bytes, m.length = 14 ∧ reservedBytes ⟨m⟩ = 16 * (2 ^ 31 - 1) := by
  refine ⟨[0, 3, 0, 1, 0, 0, 0, 7, 0, 0, 0x7f, 0xff, 0xff, 0xff], rfl, ?_⟩
  decide +kernel

/-- **C77** is false, with padding: 32 bytes, a Fetch request for 2^31-1 partitions of one topic none of which follows, make the mock reserve almost 48 GiB. The three numbers of a partition take
16 bytes; each element takes 24, since the second number is aligned and the whole is rounded up. -/
theorem C77_false_fetch : ∃ m : Bytes, m.length = 32 ∧ reservedBytes ⟨m⟩ = 40 + 24 * (2 ^ 31 - 1) := by
  refine ⟨[0, 1, 0, 2, 0, 0, 0, 7, 0, 0, 0, 0, 0, 0, 0, 0, 0, 0, 0, 0, 0, 0, 0, 0, 0, 1, 0, 0, 0x7f, 0xff, 0xff, 0xff], rfl, ?_⟩
  decide +kernel

/-- The hypothesis of `C77_accepted_partial`. -/
example : ∃ tr w', Exec (World.init 0) (dispatcher ⟨9092, []⟩ ⟨(Request.metadata [[116], [117]]).message 7 none⟩ 20) tr w' (.ret .done) := by
  rw [dispatcher_message (by simp [Request.WellFormed, ShortStr, ShortList]) _ _ _ (by simp) (by decide) (by decide)]
  exact ⟨_, _, Prog.run_ret (sch := go 12) rfl⟩
example : reserved ⟨(Request.metadata [[116], [117]]).message 7 none⟩ = [⟨2, 16⟩] := by decide +kernel

end KM.Props
