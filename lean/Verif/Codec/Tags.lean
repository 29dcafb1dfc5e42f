import Verif.Codec.RoundTrip
import Verif.Go.Map
/-
Tagged fields: `encodeTags` /repo/encoder.go:454-475 and `peekTags` /repo/decoder.go:186-229.
-/
namespace KM

/-- A dynamically typed Go value (`any`). -/
abbrev Dyn := (t : Ty) × t.den

/-- A `map[int]any` in its iteration order (distinct keys; Go `int` as `Int`). -/
abbrev TagMap := List (Int × Dyn)

/-- The loop body for one tag id, /repo/encoder.go:463-474. -/
def encodeTag (id : Int) (body : Bytes) : Bytes :=
  encodeVarUint (BitVec.ofInt 32 id) ++ (encodeVarUint (BitVec.ofNat 32 body.length) ++ body)

/-- The loop over the sorted ids. A missing id cannot occur. -/
def encodeTagIds (tags : TagMap) : List Int → Option Bytes
  | [] => some []
  | id :: ids => do
    let tag ← GoMap.get tags id
    let body ← encodeObject tag.1 tag.2
    let rest ← encodeTagIds tags ids
    return encodeTag id body ++ rest

/-- `encodeTags`, /repo/encoder.go:454-475; `sort.Ints` is modelled by merge sort. -/
def encodeTags (tags : TagMap) : Option Bytes := do
  let body ← encodeTagIds tags ((GoMap.keys tags).mergeSort (· ≤ ·))
  return encodeVarUint (BitVec.ofNat 32 tags.length) ++ body

/-- What `peekTags` stores for a tag: raw bytes of an unknown tag, or the decoded object. -/
inductive TagVal where
  | raw (b : Bytes)
  | known (t : Ty) (v : Option t.den)

/-- The loop of `peekTags`, /repo/decoder.go:194-225. For a known field `taglen` is ignored. -/
def peekTagsLoop (r : Reader) (fields : List (Int × Ty)) : Nat → Nat → List (Int × TagVal) → Res (List (Int × TagVal))
  | 0, next, t => .ok next t
  | k + 1, next, t =>
    (peekVarUint r next).bind fun next tag =>
    (peekVarUint r next).bind fun next taglen =>
    match GoMap.get fields (tag.toNat : Int) with
    | none =>
      let p := r.peek (next + taglen.toNat)
      if p.2 then .short
      else peekTagsLoop r fields k (next + taglen.toNat) (GoMap.set t (tag.toNat : Int) (.raw (p.1.drop next)))
    | some ty =>
      (peekObject ty r next).bind fun next item =>
        peekTagsLoop r fields k next (GoMap.set t (tag.toNat : Int) (.known ty item))

/-- /repo/decoder.go:186-229 -/
def peekTags (r : Reader) (offset : Nat) (fields : List (Int × Ty)) : Res (List (Int × TagVal)) :=
  (peekVarUint r offset).bind fun next values => peekTagsLoop r fields values.toNat next []

/-! ### Proofs -/

theorem encodeTagIds_perm {tags tags' : TagMap} (hp : tags.Perm tags') (hn : (GoMap.keys tags).Nodup) (ids : List Int) :
    encodeTagIds tags ids = encodeTagIds tags' ids := by
  induction ids with
  | nil => rfl
  | cons id ids ih => simp only [encodeTagIds, ih, GoMap.get_perm hp hn id]

theorem sorted_perm_eq {l l' : List Int} (hp : l.Perm l') (h : l.Pairwise (· ≤ ·)) (h' : l'.Pairwise (· ≤ ·)) : l = l' := by
  induction l generalizing l' with
  | nil => exact hp.nil_eq
  | cons a l ih =>
    cases l' with
    | nil => exact absurd hp.symm.nil_eq (by simp)
    | cons b l' =>
      have hab : a = b := by
        have h1 : a ∈ b :: l' := hp.mem_iff.1 (by simp)
        have h2 : b ∈ a :: l := hp.mem_iff.2 (by simp)
        rw [List.pairwise_cons] at h h'
        rcases List.mem_cons.1 h1 with e | h1
        · exact e
        · rcases List.mem_cons.1 h2 with e | h2
          · exact e.symm
          · have := h.1 b h2; have := h'.1 a h1; omega
      subst hab
      rw [ih (List.Perm.cons_inv hp) (List.pairwise_cons.1 h).2 (List.pairwise_cons.1 h').2]

theorem sortInts_pairwise (l : List Int) : (l.mergeSort (· ≤ ·)).Pairwise (· ≤ ·) := by
  have := List.pairwise_mergeSort (le := fun a b : Int => decide (a ≤ b)) (by intro a b c; simp; omega) (by intro a b; simp; omega) l
  simpa using this

theorem sortInts_eq_of_perm {l l' : List Int} (hp : l.Perm l') : l.mergeSort (· ≤ ·) = l'.mergeSort (· ≤ ·) :=
  sorted_perm_eq (((List.mergeSort_perm l _).trans hp).trans (List.mergeSort_perm l' _).symm)
    (sortInts_pairwise l) (sortInts_pairwise l')

theorem encodeTags_perm {tags tags' : TagMap} (hp : tags.Perm tags') (hn : (GoMap.keys tags).Nodup) :
    encodeTags tags = encodeTags tags' := by
  unfold encodeTags
  have hk : (GoMap.keys tags).Perm (GoMap.keys tags') := hp.map Prod.fst
  rw [sortInts_eq_of_perm hk, encodeTagIds_perm hp hn,
    hp.length_eq]

theorem encodeVarUint_length_pos (v : BitVec 32) : 0 < (encodeVarUint v).length := by
  unfold encodeVarUint makeVarUint
  exact List.length_pos_iff.2 (makeVarU_ne_nil v)

theorem encodeTagIds_length {tags : TagMap} {ids : List Int} {b : Bytes} (h : encodeTagIds tags ids = some b) :
    ids.length ≤ b.length := by
  induction ids generalizing b with
  | nil => simp
  | cons id ids ih =>
    simp only [encodeTagIds, Option.pure_def, Option.bind_eq_bind, Option.bind_eq_some_iff] at h
    obtain ⟨tag, _, body, _, rest, hr, h⟩ := h
    injection h with h; subst h
    have := ih hr
    have := encodeVarUint_length_pos (BitVec.ofInt 32 id)
    simp [encodeTag]; omega

/-- Entries listed for the sorted ids. -/
def tagEntries (tags : TagMap) : List Int → Option (List (Int × TagVal))
  | [] => some []
  | id :: ids => do
    let tag ← GoMap.get tags id
    let body ← encodeObject tag.1 tag.2
    let rest ← tagEntries tags ids
    return (id, .raw body) :: rest

theorem peekTagsLoop_at {r : Reader} {tags : TagMap} {ids : List Int} {b : Bytes} (he : encodeTagIds tags ids = some b)
    (hids : ids.Nodup) (hr : ∀ id ∈ ids, 0 ≤ id ∧ id < 2 ^ 32) {off : Nat} (h : At r off b)
    (acc : List (Int × TagVal)) (hacc : ∀ id ∈ ids, GoMap.get acc id = none) :
    ∃ es, tagEntries tags ids = some es ∧ peekTagsLoop r [] ids.length off acc = .ok (off + b.length) (acc ++ es) := by
  induction ids generalizing off b acc with
  | nil =>
    simp only [encodeTagIds, Option.some.injEq] at he; subst he
    exact ⟨[], rfl, by simp [peekTagsLoop]⟩
  | cons id ids ih =>
    simp only [encodeTagIds, Option.pure_def, Option.bind_eq_bind, Option.bind_eq_some_iff] at he
    obtain ⟨tag, ht, body, hb, rest, hrest, he⟩ := he
    injection he with he; subst he
    obtain ⟨h1, h2⟩ := h.append
    unfold encodeTag at h1
    obtain ⟨h3, h4⟩ := h1.append
    obtain ⟨h5, h6⟩ := h4.append
    rw [List.nodup_cons] at hids
    have hid := hr id (by simp)
    have e1 : ((BitVec.ofInt 32 id).toNat : Int) = id := by
      rw [BitVec.toNat_ofInt]; omega
    have hlen : body.length < 2 ^ 32 := by
      have := h6.take_drop.2
      have := r.window_length
      omega
    have e2 : (BitVec.ofNat 32 body.length).toNat = body.length := by
      rw [BitVec.toNat_ofNat, Nat.mod_eq_of_lt hlen]
    obtain ⟨es, hes, hloop⟩ := ih hrest hids.2 (fun i hi => hr i (by simp [hi])) h2
      (GoMap.set acc id (.raw body)) (by
        intro i hi
        rw [GoMap.get_set_ne]
        · exact hacc i (by simp [hi])
        · rintro rfl; exact hids.1 hi)
    refine ⟨(id, .raw body) :: es, by simp [tagEntries, ht, hb, hes], ?_⟩
    simp only [List.length_cons, peekTagsLoop]
    rw [peekVarUint_at h3]
    simp only [Res.bind_ok]
    rw [peekVarUint_at h5]
    simp only [Res.bind_ok, e1, e2, GoMap.get_nil]
    obtain ⟨h7, h8⟩ := h6.take_drop
    rw [Reader.peek_eq]
    simp only [decide_eq_true_eq]
    rw [if_neg (by omega), h7]
    have eoff : off + (encodeVarUint (BitVec.ofInt 32 id)).length + (encodeVarUint (BitVec.ofNat 32 body.length)).length
        + body.length = off + (encodeTag id body).length := by
      simp [encodeTag]; omega
    rw [eoff, hloop, GoMap.set_new _ (hacc id (by simp))]
    simp only [List.append_assoc, List.singleton_append, List.length_append, Nat.add_assoc]

theorem tagEntries_spec {tags : TagMap} {ids : List Int} {es : List (Int × TagVal)} (h : tagEntries tags ids = some es) :
    GoMap.keys es = ids ∧ ∀ id, GoMap.get es id =
      if id ∈ ids then ((GoMap.get tags id).bind fun tag => encodeObject tag.1 tag.2).map TagVal.raw else none := by
  induction ids generalizing es with
  | nil => simp only [tagEntries, Option.some.injEq] at h; subst h; simp [GoMap.keys, GoMap.get]
  | cons i ids ih =>
    simp only [tagEntries, Option.pure_def, Option.bind_eq_bind, Option.bind_eq_some_iff] at h
    obtain ⟨tag, ht, body, hb, rest, hrest, h⟩ := h
    injection h with h; subst h
    obtain ⟨ih1, ih2⟩ := ih hrest
    refine ⟨by simp only [GoMap.keys, List.map_cons] at ih1 ⊢; rw [ih1], ?_⟩
    intro id
    simp only [GoMap.get, ih2]
    by_cases e : i = id
    · subst e; simp [ht, hb]
    · have : id ≠ i := Ne.symm e
      simp [e, this]

theorem local_peekTagsLoop (fields : List (Int × Ty)) (k off : Nat) (acc : List (Int × TagVal)) :
    Local off (fun r => peekTagsLoop r fields k off acc) := by
  induction k generalizing off acc with
  | zero => exact Local.pure off acc
  | succ k ih =>
    simp only [peekTagsLoop]
    refine (local_peekVarUint off).bind (g := fun r next tag => (peekVarUint r next).bind fun next taglen =>
      match GoMap.get fields (tag.toNat : Int) with
      | none =>
        let p := r.peek (next + taglen.toNat)
        if p.2 then .short
        else peekTagsLoop r fields k (next + taglen.toNat) (GoMap.set acc (tag.toNat : Int) (.raw (p.1.drop next)))
      | some ty =>
        (peekObject ty r next).bind fun next item =>
          peekTagsLoop r fields k next (GoMap.set acc (tag.toNat : Int) (.known ty item))) ?_
    intro n tag _
    refine (local_peekVarUint n).bind (g := fun r next taglen =>
      match GoMap.get fields (tag.toNat : Int) with
      | none =>
        let p := r.peek (next + taglen.toNat)
        if p.2 then .short
        else peekTagsLoop r fields k (next + taglen.toNat) (GoMap.set acc (tag.toNat : Int) (.raw (p.1.drop next)))
      | some ty =>
        (peekObject ty r next).bind fun next item =>
          peekTagsLoop r fields k next (GoMap.set acc (tag.toNat : Int) (.known ty item))) ?_
    intro m taglen _
    cases GoMap.get fields (tag.toNat : Int) with
    | none =>
      refine Local.congr ((local_peekFixedData m taglen.toNat).bind (g := fun r next d =>
        peekTagsLoop r fields k next (GoMap.set acc (tag.toNat : Int) (.raw d))) (fun n v _ => ih n _)) ?_
      intro r
      simp only [peekFixedData]
      split <;> rfl
    | some ty =>
      exact (local_peekObject ty m).bind (g := fun r next item =>
        peekTagsLoop r fields k next (GoMap.set acc (tag.toNat : Int) (.known ty item))) (fun n v _ => ih n _)

theorem local_peekTags (fields : List (Int × Ty)) (off : Nat) : Local off (fun r => peekTags r off fields) :=
  (local_peekVarUint off).bind (g := fun r next (values : BitVec 32) => peekTagsLoop r fields values.toNat next [])
    (fun n v _ => local_peekTagsLoop fields v.toNat n [])

end KM
