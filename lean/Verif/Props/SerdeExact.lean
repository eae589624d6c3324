import Verif.Props.Serde

/-!
# C33, exactly: what happens to a serialized dataset with parts of the wrong length
-/

set_option autoImplicit false

namespace Hidefix.Props
open Hidefix Hidefix.Spec Hidefix.Proofs Outcome

/-- The bytes of an index that holds one dataset, `name`, with the rank `D`, the chunk bytes `cb`, and the
other fields those of `ds`; `ds`'s arrays need not have `D` elements. -/
def oneDataset (name : Name) (D : Nat) (cb : List Byte) (ds : Dataset) : List Byte :=
  encOption encBytes none ++ (encOption encBytes none ++ (encU64 1 ++ ((encBytes name ++ (encTag D ++
  (ds.dtype.enc ++ (encU64 ds.dsize ++ (ds.order.enc ++ (encBytes cb ++ (encArr ds.shape ++
  (encArr ds.chunkShape ++ (encArr ds.chunkShapeReduced ++ (encArr ds.scaledDimSz ++
  (encArr ds.dimSz ++ (encArr ds.chunkDimSz ++ (encBool ds.shuffle ++
  encOption (leBytes 1) ds.gzip))))))))))))) ++ encU64 0)))

/-- It is what serializing such an index writes. -/
theorem oneDataset_save (name : Name) (ds : Dataset) :
    Index.save ⟨none, .mk none [(name, ds)] []⟩ =
      ok (oneDataset name ds.shape.length (ds.chunks.map Chunk.enc).flatten ds) := by
  simp [Index.save, GroupIndex.pathsUtf8, pathUtf8, groupsUtf8, Index.enc, GroupIndex.enc, encMap, encGroups,
    DatasetD.enc, Dataset.enc, encChunks, oneDataset, encOption]

/-- A list of `u64`, as long as a list in memory can be. -/
def IsList (l : List Nat) : Prop := FitsU64 l.length ∧ ∀ x ∈ l, FitsU64 x

/-- The types of the fields of a dataset, with no claim about the lengths of the arrays. -/
structure Typed (ds : Dataset) : Prop where
  dtype : FitsU64 ds.dtype.dsize
  dsize : FitsU64 ds.dsize
  shape : IsList ds.shape
  chunkShape : IsList ds.chunkShape
  chunkShapeReduced : IsList ds.chunkShapeReduced
  scaledDimSz : IsList ds.scaledDimSz
  dimSz : IsList ds.dimSz
  chunkDimSz : IsList ds.chunkDimSz
  gzip : ∀ z, ds.gzip = some z → z < 256

/-- `D` elements: what is too much is cut off, what is missing is 0. -/
def padCut (D : Nat) (l : List Nat) : List Nat := l.take D ++ List.replicate (D - l.length) 0

theorem reads_padCut {D : Nat} {l : List Nat} (h : IsList l) :
    Reads (decArr D) (encArr l) (padCut D l) :=
  (reads_vec h.1 h.2).map fun _ => rfl

/-- What the dataset's decoder makes of an array of divisors: an error if it has not `D` elements, a panic
if one of them is 0. -/
theorem decSr_eq {D : Nat} {l : List Nat} (h : IsList l) (rest : List Byte) :
    decSr D (encArr l ++ rest) = if l.length = D then
      (if ∀ x ∈ l, x ≠ 0 then ok (l, rest) else .panic .divZero) else err .decode := by
  unfold decSr
  rw [(reads_vec h.1 h.2).1 rest, ok_bind]
  simp only
  by_cases hl : l.length = D
  · rw [if_pos hl]
    by_cases h0 : ∀ x ∈ l, x ≠ 0
    · rw [if_pos h0]
      have : strengthReduce l = ok l := by
        unfold strengthReduce; rw [if_pos (by simpa using h0)]
      simp [ensure, hl, this]
    · rw [if_neg h0]
      have : strengthReduce l = .panic .divZero := by
        unfold strengthReduce; rw [if_neg (by simpa using h0)]
      simp [ensure, hl, this]
  · rw [if_neg hl]
    simp [ensure, hl]

/-- What the decoder makes of the chunk bytes. -/
theorem decChunks_eq {D : Nat} {cb : List Byte} (h : FitsU64 cb.length) (rest : List Byte) :
    decChunks D (encBytes cb ++ rest) = if cb.length % 8 = 0 then
      (if cb.length / 8 % (D + 2) = 0 then ok ((words (8 * (D + 2)) cb).map Chunk.ofBytes, rest)
       else .panic .assertion) else .panic .unwrap := by
  unfold decChunks
  rw [(reads_bytes h).1 rest, ok_bind]

/-- Everything up to the chunk bytes is read. -/
theorem load_oneDataset {name : Name} {D : Nat} {cb : List Byte} {ds : Dataset} (hn : IsStr name)
    (hD : D ≤ 9) (ht : Typed ds) (hc : FitsU64 cb.length) (rest : List Byte) :
    Index.load (oneDataset name D cb ds ++ rest) =
      if ¬ cb.length % 8 = 0 then .panic .unwrap
      else if ¬ cb.length / 8 % (D + 2) = 0 then .panic .assertion
      else if ¬ ds.chunkShapeReduced.length = D then err .decode
      else if ¬ (∀ x ∈ ds.chunkShapeReduced, x ≠ 0) then .panic .divZero
      else ok ⟨none, .mk none [(name, { ds with
        chunks := (words (8 * (D + 2)) cb).map Chunk.ofBytes,
        shape := padCut D ds.shape, chunkShape := padCut D ds.chunkShape,
        scaledDimSz := padCut D ds.scaledDimSz,
        dimSz := padCut D ds.dimSz, chunkDimSz := padCut D ds.chunkDimSz })] []⟩ := by
  have hone : FitsU64 1 := by unfold FitsU64; omega
  have hzero : FitsU64 0 := by unfold FitsU64; omega
  have hnone : ∀ rest : List Byte, decOption decStr ((encOption encBytes none : List Byte) ++ rest) =
      ok (none, rest) := fun rest => (reads_option (f := encBytes) (o := none) (by simp)).1 rest
  have hds : ∀ rest : List Byte, decDataset D (ds.dtype.enc ++ (encU64 ds.dsize ++ (ds.order.enc ++
      (encBytes cb ++ (encArr ds.shape ++
      (encArr ds.chunkShape ++ (encArr ds.chunkShapeReduced ++ (encArr ds.scaledDimSz ++
      (encArr ds.dimSz ++ (encArr ds.chunkDimSz ++ (encBool ds.shuffle ++
      (encOption (leBytes 1) ds.gzip ++ rest)))))))))))) =
      if ¬ cb.length % 8 = 0 then .panic .unwrap
      else if ¬ cb.length / 8 % (D + 2) = 0 then .panic .assertion
      else if ¬ ds.chunkShapeReduced.length = D then err .decode
      else if ¬ (∀ x ∈ ds.chunkShapeReduced, x ≠ 0) then .panic .divZero
      else ok ({ ds with
        chunks := (words (8 * (D + 2)) cb).map Chunk.ofBytes,
        shape := padCut D ds.shape, chunkShape := padCut D ds.chunkShape,
        scaledDimSz := padCut D ds.scaledDimSz,
        dimSz := padCut D ds.dimSz, chunkDimSz := padCut D ds.chunkDimSz }, rest) := by
    intro rest
    unfold decDataset
    rw [(reads_datatype ht.dtype).1, ok_bind]
    simp only
    rw [(reads_u64 ht.dsize).1, ok_bind]
    simp only
    rw [(reads_order ds.order).1, ok_bind]
    simp only
    rw [decChunks_eq hc]
    by_cases h1 : cb.length % 8 = 0
    swap
    · rw [if_neg h1, if_pos h1]; rfl
    rw [if_pos h1, if_neg (not_not.2 h1)]
    by_cases h2 : cb.length / 8 % (D + 2) = 0
    swap
    · rw [if_neg h2, if_pos h2]; rfl
    rw [if_pos h2, if_neg (not_not.2 h2), ok_bind]
    simp only
    rw [(reads_padCut ht.shape).1, ok_bind]
    simp only
    rw [(reads_padCut ht.chunkShape).1, ok_bind]
    simp only
    rw [decSr_eq ht.chunkShapeReduced]
    by_cases h3 : ds.chunkShapeReduced.length = D
    swap
    · rw [if_neg h3, if_pos h3]; rfl
    rw [if_pos h3, if_neg (not_not.2 h3)]
    by_cases h4 : ∀ x ∈ ds.chunkShapeReduced, x ≠ 0
    swap
    · rw [if_neg h4, if_pos h4]; rfl
    rw [if_pos h4, if_neg (not_not.2 h4), ok_bind]
    simp only
    rw [(reads_padCut ht.scaledDimSz).1, ok_bind]
    simp only
    rw [(reads_padCut ht.dimSz).1, ok_bind]
    simp only
    rw [(reads_padCut ht.chunkDimSz).1, ok_bind]
    simp only
    rw [(reads_bool ds.shuffle).1, ok_bind]
    simp only
    rw [(reads_option (f := leBytes 1) (o := ds.gzip)
      fun z hz => reads_int (k := 1) (by have := ht.gzip z hz; omega)).1, ok_bind]
  unfold Index.load oneDataset
  rw [List.append_assoc, hnone, ok_bind]
  simp only
  generalize hN : List.length _ + 1 = N
  obtain ⟨M, rfl⟩ : ∃ M, N = M + 1 := ⟨_, hN.symm⟩
  unfold decGroup
  rw [List.append_assoc, hnone, ok_bind]
  simp only
  unfold decMap
  rw [List.append_assoc, (reads_u64 hone).1, ok_bind]
  simp only [decN]
  unfold decEntry
  simp only [List.append_assoc]
  rw [(reads_str hn).1, ok_bind]
  simp only
  unfold decDatasetD
  rw [(reads_tag (v := D) (by omega)).1, ok_bind]
  simp only
  rw [if_pos (by omega : D < 10), hds]
  split
  · rfl
  split
  · rfl
  split
  · rfl
  split
  · rfl
  simp only [ok_bind]
  rw [(reads_u64 hzero).1]
  rfl

/-- C33 fails, whatever the dataset: an index whose serialized shape, chunk shape, or strides have any
number of elements at all is accepted; what is too much is cut off and what is missing is taken to be
0. -/
theorem C33_lengths {name : Name} {D : Nat} {l : List Chunk} {ds : Dataset} (hn : IsStr name) (hD : D ≤ 9)
    (ht : Typed ds) (hl : ∀ c ∈ l, IsChunk D c) (hfit : FitsU64 (l.length * (8 * (D + 2))))
    (hr : ds.chunkShapeReduced.length = D) (h0 : ∀ x ∈ ds.chunkShapeReduced, x ≠ 0) (rest : List Byte) :
    Index.load (oneDataset name D (l.map Chunk.enc).flatten ds ++ rest) =
      ok ⟨none, .mk none [(name, { ds with
        chunks := l, shape := padCut D ds.shape, chunkShape := padCut D ds.chunkShape,
        scaledDimSz := padCut D ds.scaledDimSz,
        dimSz := padCut D ds.dimSz, chunkDimSz := padCut D ds.chunkDimSz })] []⟩ := by
  have hlen : (l.map Chunk.enc).flatten.length = l.length * (8 * (D + 2)) := by
    clear hfit
    induction l with
    | nil => simp
    | cons c l ih =>
      rw [List.map_cons, List.flatten_cons, List.length_append, chunk_enc_length (hl c (by simp)).2.2.1,
        ih (fun c hc => hl c (by simp [hc])), List.length_cons]
      ring
  have h1 := (reads_chunks hl hfit).1 []
  unfold encChunks at h1
  rw [decChunks_eq (by rw [hlen]; exact hfit)] at h1
  rw [load_oneDataset hn hD ht (by rw [hlen]; exact hfit)]
  split at h1
  · split at h1
    · rename_i a b
      rw [if_neg (not_not.2 a), if_neg (not_not.2 b), if_neg (not_not.2 hr), if_neg (not_not.2 h0)]
      have := (Prod.mk.inj (Outcome.ok.inj h1)).1
      rw [this]
    · simp at h1
  · simp at h1

/-- C33 fails, whatever the dataset: chunk bytes that are not whole chunks, and a divisor of 0, panic; only
a wrong number of divisors is an error. -/
theorem C33_panics {name : Name} {D : Nat} {cb : List Byte} {ds : Dataset} (hn : IsStr name) (hD : D ≤ 9)
    (ht : Typed ds) (hc : FitsU64 cb.length) (rest : List Byte) :
    (cb.length % (8 * (D + 2)) ≠ 0 → ∃ f, Index.load (oneDataset name D cb ds ++ rest) = .panic f) ∧
    (cb.length % (8 * (D + 2)) = 0 → ds.chunkShapeReduced.length ≠ D →
      Index.load (oneDataset name D cb ds ++ rest) = err .decode) ∧
    (cb.length % (8 * (D + 2)) = 0 → ds.chunkShapeReduced.length = D → 0 ∈ ds.chunkShapeReduced →
      Index.load (oneDataset name D cb ds ++ rest) = .panic .divZero) := by
  have hm : cb.length % (8 * (D + 2)) = 0 ↔ cb.length % 8 = 0 ∧ cb.length / 8 % (D + 2) = 0 := by
    rw [Nat.mod_mul]
    omega
  rw [load_oneDataset hn hD ht hc]
  refine ⟨fun h => ?_, fun h h1 => ?_, fun h h1 h2 => ?_⟩
  · by_cases h8 : cb.length % 8 = 0
    · rw [if_neg (not_not.2 h8), if_pos (fun h' => h (hm.2 ⟨h8, h'⟩))]; exact ⟨_, rfl⟩
    · rw [if_pos h8]; exact ⟨_, rfl⟩
  · rw [if_neg (not_not.2 (hm.1 h).1), if_neg (not_not.2 (hm.1 h).2), if_pos h1]
  · rw [if_neg (not_not.2 (hm.1 h).1), if_neg (not_not.2 (hm.1 h).2), if_neg (not_not.2 h1),
      if_pos (fun h' => h' 0 h2 rfl)]

/-- The hypotheses hold for a dataset with too short a shape and too many strides. -/
example : Typed { Demo.ds with shape := [], dimSz := [1, 2, 3, 4, 5] } ∧ IsStr [120] := by
  refine ⟨⟨?_, ?_, ?_, ?_, ?_, ?_, ?_, ?_, by decide⟩, ?_⟩
  all_goals first
    | (unfold FitsU64; decide)
    | (unfold IsList FitsU64; decide)
    | (refine ⟨?_, by unfold FitsU64; decide⟩; rw [← utf8_iff]; decide)

end Hidefix.Props
