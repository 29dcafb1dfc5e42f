import Verif.Request
import Verif.Spec.Loose
/-
The decoder accepts nothing else: what it has read to a value is an encoding of the value.
-/
namespace KM
open Spec

theorem At.join {r : Reader} {off : Nat} {a b : Bytes} (h1 : At r off a) (h2 : At r (off + a.length) b) : At r off (a ++ b) := by
  obtain ⟨pre, post, e, rfl⟩ := h1
  obtain ⟨pre', post', e', l'⟩ := h2
  have e2 : (pre ++ a) ++ post = pre' ++ (b ++ post') := by rw [← e', e, List.append_assoc]
  obtain ⟨_, e4⟩ := List.append_inj e2 (by rw [l', List.length_append])
  exact ⟨pre, post', by rw [e, e4]; simp, rfl⟩

/-- Whatever the decoding function reads successfully is an encoding of the result, and that is what it moves over. -/
def Parses {α : Type} (dec : Reader → Nat → Res α) (P : α → Lang) : Prop :=
  ∀ r off n v, off ≤ r.window.length → dec r off = .ok n v → ∃ b, At r off b ∧ n = off + b.length ∧ P v b

theorem At.bound {r : Reader} {off : Nat} {b : Bytes} (h : At r off b) : off + b.length ≤ r.window.length := h.take_drop.2

theorem Parses.congr {α : Type} {dec dec' : Reader → Nat → Res α} {P : α → Lang} (h : Parses dec P) (e : ∀ r off, dec' r off = dec r off) : Parses dec' P := by
  intro r off n v ho hd
  rw [e] at hd
  exact h r off n v ho hd

theorem Parses.mono {α : Type} {dec : Reader → Nat → Res α} {P Q : α → Lang} (h : Parses dec P) (e : ∀ v b, P v b → Q v b) : Parses dec Q := by
  intro r off n v ho hd
  obtain ⟨b, h1, h2, h3⟩ := h r off n v ho hd
  exact ⟨b, h1, h2, e v b h3⟩

theorem Parses.pure {α : Type} (v : α) : Parses (fun _ off => .ok off v) (fun x b => x = v ∧ b = []) := by
  intro r off n x ho hd
  cases hd
  refine ⟨[], ⟨r.window.take off, r.window.drop off, by simp, by rw [List.length_take]; omega⟩, rfl, rfl, rfl⟩

theorem Parses.bind {α β : Type} {dec : Reader → Nat → Res α} {f : Reader → Nat → α → Res β} {P : α → Lang} {Q : α → β → Lang}
    (h1 : Parses dec P) (h2 : ∀ v, Parses (fun r n => f r n v) (Q v)) :
    Parses (fun r off => (dec r off).bind (f r)) (fun u b => ∃ v, (P v ++ Q v u) b) := by
  intro r off n u ho hd
  dsimp only at hd
  cases hx : dec r off with
  | short => simp [hx] at hd
  | panic => simp [hx] at hd
  | ok m v =>
    rw [hx, Res.bind_ok] at hd
    obtain ⟨b1, a1, e1, p1⟩ := h1 r off m v ho hx
    subst e1
    obtain ⟨b2, a2, e2, p2⟩ := h2 v r _ n u a1.bound hd
    exact ⟨b1 ++ b2, a1.join a2, by rw [e2, List.length_append]; omega, v, b1, b2, rfl, p1, p2⟩

theorem Parses.map {α β : Type} {dec : Reader → Nat → Res α} {P : α → Lang} (h : Parses dec P) (f : α → β) :
    Parses (fun r off => (dec r off).map f) (fun u b => ∃ v, u = f v ∧ P v b) := by
  intro r off n u ho hd
  dsimp only at hd
  cases hx : dec r off with
  | short => simp [hx] at hd
  | panic => simp [hx] at hd
  | ok m v =>
    rw [hx, Res.map_ok] at hd
    cases hd
    obtain ⟨b1, a1, e1, p1⟩ := h r off _ v ho hx
    exact ⟨b1, a1, e1, v, rfl, p1⟩

theorem Parses.panic {α : Type} (P : α → Lang) : Parses (fun _ _ => .panic) P := by
  intro r off n v ho hd; cases hd

theorem parses_fixed (len : Nat) : Parses (fun r off => peekFixedData r off len) (fun v b => b = v ∧ v.length = len) := by
  intro r off n v ho hd
  dsimp only at hd
  simp only [peekFixedData, Reader.peek_eq, decide_eq_true_eq] at hd
  split at hd
  · cases hd
  · rename_i hl
    injection hd with h1 h2
    have hv : v.length = len := by rw [← h2, List.length_drop, List.length_take]; omega
    refine ⟨v, ⟨r.window.take off, r.window.drop (off + len), ?_, by rw [List.length_take]; omega⟩, by omega, rfl, hv⟩
    have e : r.window.take off ++ v = r.window.take (off + len) := by
      rw [← h2]
      have := List.take_append_drop off (r.window.take (off + len))
      rwa [List.take_take, Nat.min_eq_left (by omega)] at this
    rw [← List.append_assoc, e, List.take_append_drop]

theorem parses_int16 : Parses peekInt16 (fun v => .only (Spec.int16 v)) := by
  refine ((parses_fixed 2).map fun data => (BitVec.ofNat 16 (getBE (data.take 2)) : I16)).mono ?_
  rintro v b ⟨d, rfl, rfl, hd⟩
  have hl := getBE_lt b
  rw [hd] at hl
  show b = _
  rw [Spec.int16_eq, encodeInt16, List.take_of_length_le (by omega), BitVec.toNat_ofNat, Nat.mod_eq_of_lt hl]
  exact (hd ▸ putBE_getBE b).symm

theorem parses_int32 : Parses peekInt32 (fun v => .only (Spec.int32 v)) := by
  refine ((parses_fixed 4).map fun data => (BitVec.ofNat 32 (getBE (data.take 4)) : I32)).mono ?_
  rintro v b ⟨d, rfl, rfl, hd⟩
  have hl := getBE_lt b
  rw [hd] at hl
  show b = _
  rw [Spec.int32_eq, encodeInt32, List.take_of_length_le (by omega), BitVec.toNat_ofNat, Nat.mod_eq_of_lt hl]
  exact (hd ▸ putBE_getBE b).symm

theorem parses_int64 : Parses peekInt64 (fun v => .only (Spec.int64 v)) := by
  refine ((parses_fixed 8).map fun data => (BitVec.ofNat 64 (getBE (data.take 8)) : I64)).mono ?_
  rintro v b ⟨d, rfl, rfl, hd⟩
  have hl := getBE_lt b
  rw [hd] at hl
  show b = _
  rw [Spec.int64_eq, encodeInt64, List.take_of_length_le (by omega), BitVec.toNat_ofNat, Nat.mod_eq_of_lt hl]
  exact (hd ▸ putBE_getBE b).symm

theorem ofNat_toNat_of_toInt {w : Nat} (n : BitVec w) (h : ¬ n.toInt < 0) : BitVec.ofNat w n.toInt.toNat = n ∧ n.toInt.toNat < 2 ^ (w - 1) := by
  rw [BitVec.toInt_eq_toNat_cond] at h ⊢
  have hl := n.isLt
  split at h
  · rename_i h2
    rw [if_pos h2]
    refine ⟨by simp, ?_⟩
    rw [Int.toNat_natCast]
    cases w with
    | zero => simpa using hl
    | succ k =>
      rw [Nat.pow_succ] at h2
      rw [Nat.add_sub_cancel]
      omega
  · omega

theorem parses_nullableStr : Parses peekNullableString Loose.nullableStr := by
  have key : Parses (fun r off => (peekInt16 r off).bind fun n count =>
      if count.toInt < 0 then .ok n none else (peekFixedData r n count.toInt.toNat).map some) Loose.nullableStr := by
    refine (parses_int16.bind (f := fun r n (count : I16) => if count.toInt < 0 then .ok n none else (peekFixedData r n count.toInt.toNat).map some)
      (Q := fun count v b => (count.toInt < 0 ∧ v = none ∧ b = []) ∨
        (¬ count.toInt < 0 ∧ ∃ s, v = some s ∧ b = s ∧ s.length = count.toInt.toNat)) ?_).mono ?_
    · intro count
      by_cases h : count.toInt < 0
      · simp only [if_pos h]
        exact (Parses.pure none).mono fun v b hb => .inl ⟨h, hb.1, hb.2⟩
      · simp only [if_neg h]
        exact ((parses_fixed count.toInt.toNat).map some).mono fun v b ⟨s, h1, h2, h3⟩ => .inr ⟨h, s, h1, h2, h3⟩
    · rintro v b ⟨count, b1, b2, rfl, h1, h2⟩
      have h1 : b1 = Spec.int16 count := h1
      subst h1
      rcases h2 with ⟨h2, rfl, rfl⟩ | ⟨h2, s, rfl, rfl, h3⟩
      · exact ⟨count, h2, by simp⟩
      · obtain ⟨e1, e2⟩ := ofNat_toNat_of_toInt count h2
        rw [← h3] at e1 e2
        exact ⟨e2, by rw [Spec.str, e1]⟩
  exact key.congr fun r off => peekNullableData16_bind r off

theorem parses_items {β : Type} {dec : Reader → Nat → Res (Option β)} {P : β → Lang} (h : Parses dec (fun v b => ∀ x, v = some x → P x b)) (k : Nat) :
    Parses (fun r off => peekItems (dec r) true k off) (fun xs b => xs.length = k ∧ Loose.items P xs b) := by
  induction k with
  | zero => exact (Parses.pure []).mono fun v b ⟨h1, h2⟩ => by subst h1 h2; exact ⟨rfl, rfl⟩
  | succ k ih =>
    have := Parses.bind (f := fun r n (item : Option β) => match item with
      | none => Res.panic
      | some y => (peekItems (dec r) true k n).map (y :: ·)) (Q := fun v xs b => ∃ y ys, v = some y ∧ xs = y :: ys ∧ ys.length = k ∧ Loose.items P ys b) h (by
        intro v
        cases v with
        | none => exact Parses.panic _
        | some y => exact (ih.map (y :: ·)).mono fun xs b ⟨ys, h1, h2, h3⟩ => ⟨y, ys, rfl, h1, h2, h3⟩)
    refine this.mono ?_
    rintro xs b ⟨v, b1, b2, rfl, h1, y, ys, rfl, rfl, h2, h3⟩
    exact ⟨by simp [h2], b1, b2, rfl, h1 y rfl, h3⟩

theorem parses_array {β : Type} {dec : Reader → Nat → Res (Option β)} {P : β → Lang} (h : Parses dec (fun v b => ∀ x, v = some x → P x b)) :
    Parses (fun r off => peekObjectVarArray (dec r) true r off) (fun v b => ∀ xs, v = some xs → Loose.array P xs b) := by
  refine (parses_int32.bind (f := fun r n (count : I32) => peekObjectFixedArray (dec r) true n count.toInt)
    (Q := fun count v b => ∀ xs, v = some xs → ¬ count.toInt < 0 ∧ xs.length = count.toInt.toNat ∧ Loose.items P xs b) ?_).mono ?_
  · intro count
    unfold peekObjectFixedArray
    by_cases hc : count.toInt ≥ 0
    · simp only [if_pos hc]
      refine ((parses_items h count.toInt.toNat).map some).mono ?_
      rintro v b ⟨xs, rfl, h1, h2⟩ ys e
      cases e
      exact ⟨by omega, h1, h2⟩
    · simp only [if_neg hc]
      refine (Parses.pure none).mono ?_
      rintro v b ⟨rfl, _⟩ xs e
      cases e
  · rintro v b ⟨count, b1, b2, rfl, h1, h2⟩ xs rfl
    obtain ⟨h3, h4, h5⟩ := h2 xs rfl
    obtain ⟨e1, e2⟩ := ofNat_toNat_of_toInt count h3
    rw [← h4] at e1 e2
    exact ⟨e2, b1, b2, rfl, by rw [e1]; exact h1, h5⟩

/-! ### The Go types of the requests -/

/-- What the reflective decoder reads at a type. -/
abbrev ParsesTy (t : Ty) (P : t.den → Lang) : Prop := Parses (fun r off => peekObjectWorker t r off false false) (fun v b => ∀ x, v = some x → P x b)

abbrev ParsesFs (fs : Fields) (P : fs.den → Lang) : Prop := Parses (fun r off => peekObjectStruct fs r off) P

theorem Parses.some {α : Type} {dec : Reader → Nat → Res α} {P : α → Lang} (h : Parses dec P) :
    Parses (fun r off => (dec r off).map Option.some) (fun v b => ∀ x, v = Option.some x → P x b) := by
  refine (h.map Option.some).mono ?_
  rintro v b ⟨x, rfl, hx⟩ y e
  cases e
  exact hx

theorem parsesTy_int16 : ParsesTy .int16 (fun v => .only (Spec.int16 v)) := parses_int16.some.congr fun r off => by rw [peekObjectWorker]
theorem parsesTy_int32 : ParsesTy .int32 Loose.int32 := parses_int32.some.congr fun r off => by rw [peekObjectWorker]
theorem parsesTy_int64 : ParsesTy .int64 Loose.int64 := parses_int64.some.congr fun r off => by rw [peekObjectWorker]
theorem parsesTy_nullableStr : ParsesTy .nullableString Loose.nullableStr := parses_nullableStr.some.congr fun r off => by rw [peekObjectWorker]

theorem parsesTy_str : ParsesTy .string Loose.str := by
  refine ((parses_nullableStr.map fun s : Option Bytes => Option.some (s.getD [])).mono ?_).congr fun r off => by rw [peekObjectWorker]
  rintro v b ⟨s, rfl, hs⟩ x e
  cases e
  cases s with
  | none => exact .inr ⟨rfl, hs⟩
  | some s => exact .inl hs

theorem parsesTy_array {e : Ty} (he : e.assignable = true) {P : e.den → Lang} (h : ParsesTy e P) :
    ParsesTy (.slice e) (fun v b => ∃ xs, v = Option.some xs ∧ Loose.array P xs b) := by
  refine (((parses_array h).map (Option.map Option.some)).mono ?_).congr fun r off => by rw [peekObjectWorker, he]; rfl
  rintro v b ⟨u, rfl, hu⟩ x e
  cases u with
  | none => cases e
  | some xs => cases e; exact ⟨xs, rfl, hu xs rfl⟩

theorem items_bytes (s : Bytes) (b : Bytes) (h : Loose.items (fun x : UInt8 => Lang.only [x]) s b) : b = s := by
  induction s generalizing b with
  | nil => exact h
  | cons x s ih =>
    obtain ⟨b1, b2, rfl, h1, h2⟩ := h
    have h1 : b1 = [x] := h1
    rw [h1, ih b2 h2]; rfl

theorem parsesTy_bytes : ParsesTy .bytes (fun v b => ∃ s, v = Option.some s ∧ Loose.bytes s b) := by
  have h1 : Parses peekUint8 (fun v => Lang.only [v]) := by
    refine ((parses_fixed 1).map fun data => UInt8.ofNat (getBE (data.take 1))).mono ?_
    rintro v b ⟨d, rfl, rfl, hd⟩
    match b, hd with
    | [x], _ =>
      show [x] = [_]
      simp [getBE_cons]
  refine (((parses_array h1.some).map (Option.map Option.some)).mono ?_).congr fun r off => by rw [peekObjectWorker]; rfl
  rintro v b ⟨u, rfl, hu⟩ x e
  cases u with
  | none => cases e
  | some xs =>
    cases e
    obtain ⟨h2, b1, b2, rfl, h3, h4⟩ := hu xs rfl
    have h3 : b1 = _ := h3
    exact ⟨xs, rfl, h2, by rw [h3, items_bytes xs b2 h4]; rfl⟩

theorem parsesFs_nil : ParsesFs .nil (fun _ => .only []) := (Parses.pure ()).mono fun _ _ h => h.2

theorem parsesFs_cons {name : String} {t : Ty} {rest : Fields} {P : t.den → Lang} {Q : rest.den → Lang} (ha : t.assignable = true)
    (h : ParsesTy t P) (hs : ParsesFs rest Q) : ParsesFs (fld name t rest) (fun v => P v.1 ++ Q v.2) := by
  have := Parses.bind (f := fun r n (x : Option t.den) => match x with
    | none => Res.panic
    | some x => if t.assignable then (peekObjectStruct rest r n).map (x, ·) else .panic)
    (Q := fun x v b => x = Option.some v.1 ∧ Q v.2 b) h (by
      intro x
      cases x with
      | none => exact Parses.panic _
      | some x =>
        simp only [ha, if_true]
        exact (hs.map (x, ·)).mono fun v b ⟨u, h1, h2⟩ => by subst h1; exact ⟨rfl, h2⟩)
  refine (this.congr fun r off => by rw [peekObjectStruct]; rfl).mono ?_
  rintro v b ⟨x, b1, b2, rfl, h1, rfl, h2⟩
  exact ⟨b1, b2, rfl, h1 _ rfl, h2⟩

theorem parsesTy_struct {fs : Fields} {P : fs.den → Lang} (h : ParsesFs fs P) : ParsesTy (.struct fs) P :=
  h.some.congr fun r off => by rw [peekObjectWorker]

theorem Spec.Lang.cat_mono {L L' M M' : Lang} {b : Bytes} (h : (L ++ M) b) (h1 : ∀ b, L b → L' b) (h2 : ∀ b, M b → M' b) : (L' ++ M') b := by
  obtain ⟨b1, b2, e, p, q⟩ := h
  exact ⟨b1, b2, e, h1 b1 p, h2 b2 q⟩

theorem Spec.Lang.cat_nil {L : Lang} {b : Bytes} (h : (L ++ Lang.only []) b) : L b := by
  obtain ⟨b1, b2, e, p, q⟩ := h
  have q : b2 = [] := q
  rw [e, q, List.append_nil]
  exact p

theorem items_map {α β : Type} {P : α → Lang} {f : β → Lang} {g : α → β} (h : ∀ x b, P x b → f (g x) b) (xs : List α) (b : Bytes) (hx : Loose.items P xs b) :
    Loose.items f (xs.map g) b := by
  induction xs generalizing b with
  | nil => exact hx
  | cons x xs ih => exact Lang.cat_mono hx (h x) ih

theorem array_map {α β : Type} {P : α → Lang} {f : β → Lang} {g : α → β} (h : ∀ x b, P x b → f (g x) b) {xs : List α} {b : Bytes} (hx : Loose.array P xs b) :
    Loose.array f (xs.map g) b := by
  obtain ⟨h1, h2⟩ := hx
  refine ⟨by simpa [ShortList] using h1, ?_⟩
  rw [List.length_map]
  exact Lang.cat_mono h2 (fun _ => id) (items_map h xs)

end KM
