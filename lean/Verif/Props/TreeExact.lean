import Verif.Props.Tree
import Verif.Props.SerdeExact

/-!
# C33 for self-describing formats, exactly

The counterpart of `C33_lengths` and `C33_panics`, which are about bincode.
-/

set_option autoImplicit false

namespace Hidefix.Props
open Hidefix Hidefix.Spec Hidefix.Proofs Outcome

/-- A struct: a map from its field names, or just its fields in order (both are accepted). -/
def structTree (positional : Bool) (names : List String) (fields : List Tree) : Tree :=
  if positional then .seq fields else .map ((names.map ascii).zip fields)

/-- The tree of an index that holds one dataset, `name`, with the rank `D`, the chunk bytes `cb`, and the other
fields those of `ds`; `ds`'s arrays need not have `D` elements. -/
def oneTree (positional : Bool) (name : Name) (D : Nat) (cb : List Byte) (ds : Dataset) : Tree :=
  structTree positional ["path", "root"] [.null,
    structTree positional ["path", "datasets", "groups"] [.null,
      .map [(name, .map [(ascii (["D0", "D1", "D2", "D3", "D4", "D5", "D6", "D7", "D8", "D9"].getD D ""),
        structTree positional ["dtype", "dsize", "order", "chunks", "shape", "chunk_shape", "chunk_shape_reduced",
            "scaled_dim_sz", "dim_sz", "chunk_dim_sz", "shuffle", "gzip"]
          [ds.dtype.tree, .uint ds.dsize, ds.order.tree, .bytes cb,
            .seq (ds.shape.map .uint), .seq (ds.chunkShape.map .uint), .seq (ds.chunkShapeReduced.map .uint),
            .seq (ds.scaledDimSz.map .uint), .seq (ds.dimSz.map .uint), .seq (ds.chunkDimSz.map .uint),
            .bool ds.shuffle, treeOption .uint ds.gzip])])],
      .map []]]

theorem fields_struct {b : Bool} {names : List String} {vs : List Tree} (hn : (names.map ascii).Nodup)
    (hl : vs.length = names.length) :
    fieldsOf (names.map ascii) (structTree b names vs) = ok (vs.map some) := by
  cases b with
  | true =>
    show fieldsOf _ (.seq vs) = _
    rw [fieldsOf, if_pos (by simp [hl]), List.length_map, ← hl, List.take_length]
  | false =>
    show fieldsOf _ (.map _) = _
    have hk : (((names.map ascii).zip vs)).map Prod.fst = names.map ascii := by
      rw [List.map_fst_zip]; simp [hl]
    have hc : ((names.map ascii).all fun n => (((names.map ascii).zip vs).filter fun e => e.1 == n).length ≤ 1) =
        true := by
      rw [List.all_eq_true]
      intro n _
      rw [decide_eq_true_eq]
      have : (((names.map ascii).zip vs).filter fun e => e.1 == n).length =
          (((names.map ascii).zip vs).map Prod.fst).count n := by
        rw [List.count_eq_countP, List.countP_map, List.countP_eq_length_filter]; rfl
      rw [this, hk]
      exact List.nodup_iff_count_le_one.1 hn n
    rw [fieldsOf, if_pos hc]
    congr 1
    generalize hN : names.map ascii = N at *
    have hNl : vs.length = N.length := by rw [← hN, List.length_map, hl]
    refine List.ext_getElem? fun i => ?_
    rw [List.getElem?_map, List.getElem?_map]
    by_cases hi : i < names.length
    · have hi1 : i < N.length := by omega
      have hi2 : i < vs.length := by omega
      rw [List.getElem?_eq_getElem hi1, List.getElem?_eq_getElem hi2]
      simp only [Option.map_some]
      congr 1
      refine mapGet_of_mem (by rw [hk]; exact hn) ?_
      rw [List.mem_iff_getElem]
      exact ⟨i, by simp; omega, by simp⟩
    · rw [List.getElem?_eq_none (by omega), List.getElem?_eq_none (by omega)]
      rfl

theorem arr_padCut {D : Nat} {l : List Nat} (h : IsList l) : ofTreeArr D (.seq (l.map .uint)) = ok (padCut D l) := by
  rw [ofTreeArr, ofTreeVec, allOf_uint h.2, ok_bind]; rfl

theorem sr_exact {D : Nat} {l : List Nat} (h : IsList l) : ofTreeSr D (.seq (l.map .uint)) =
    if ¬ l.length = D then err .decode else if ¬ (∀ x ∈ l, x ≠ 0) then panic .divZero else ok l := by
  rw [ofTreeSr, ofTreeVec, allOf_uint h.2, ok_bind]
  by_cases hl : l.length = D
  · rw [if_neg (not_not.2 hl)]
    by_cases h0 : ∀ x ∈ l, x ≠ 0
    · have : l.all (fun c => c != 0) = true := by simpa using h0
      rw [if_neg (not_not.2 h0)]
      simp [hl, strengthReduce, this, ensure]
    · have : ¬ l.all (fun c => c != 0) = true := by simpa using h0
      rw [if_pos h0]
      simp only [hl, strengthReduce, this, ensure]
      simp
  · rw [if_pos hl]
    simp [ensure, hl]

/-- C33 in a self-describing format, for every tree of one dataset, exactly. -/
theorem ofTree_oneTree {b : Bool} {name : Name} {D : Nat} {cb : List Byte} {ds : Dataset} (hn : IsStr name)
    (hD : D ≤ 9) (ht : Typed ds) :
    Index.ofTree (oneTree b name D cb ds) =
      if ¬ cb.length % 8 = 0 then .panic .unwrap
      else if ¬ cb.length / 8 % (D + 2) = 0 then .panic .assertion
      else if ¬ ds.chunkShapeReduced.length = D then err .decode
      else if ¬ (∀ x ∈ ds.chunkShapeReduced, x ≠ 0) then .panic .divZero
      else ok ⟨none, .mk none [(name, { ds with
        chunks := (words (8 * (D + 2)) cb).map Chunk.ofBytes,
        shape := padCut D ds.shape, chunkShape := padCut D ds.chunkShape,
        scaledDimSz := padCut D ds.scaledDimSz,
        dimSz := padCut D ds.dimSz, chunkDimSz := padCut D ds.chunkDimSz })] []⟩ := by
  have hrank : rankOf (ascii (["D0", "D1", "D2", "D3", "D4", "D5", "D6", "D7", "D8", "D9"].getD D "")) = ok D := by
    have : ∀ n ∈ List.range 10,
        rankOf (ascii (["D0", "D1", "D2", "D3", "D4", "D5", "D6", "D7", "D8", "D9"].getD n "")) = ok n := by
      intro n hn
      simp only [List.range, List.range.loop, List.mem_cons, List.not_mem_nil, or_false] at hn
      rcases hn with rfl | rfl | rfl | rfl | rfl | rfl | rfl | rfl | rfl | rfl <;> rfl
    exact this D (by rw [List.mem_range]; omega)
  unfold oneTree
  generalize hds : structTree b ["dtype", "dsize", "order", "chunks", "shape", "chunk_shape", "chunk_shape_reduced",
    "scaled_dim_sz", "dim_sz", "chunk_dim_sz", "shuffle", "gzip"] _ = tds
  generalize hgr : structTree b ["path", "datasets", "groups"] _ = tgr
  have hone : ofTreeDataset D tds =
      if ¬ cb.length % 8 = 0 then .panic .unwrap
      else if ¬ cb.length / 8 % (D + 2) = 0 then .panic .assertion
      else if ¬ ds.chunkShapeReduced.length = D then err .decode
      else if ¬ (∀ x ∈ ds.chunkShapeReduced, x ≠ 0) then .panic .divZero
      else ok { ds with
        chunks := (words (8 * (D + 2)) cb).map Chunk.ofBytes,
        shape := padCut D ds.shape, chunkShape := padCut D ds.chunkShape,
        scaledDimSz := padCut D ds.scaledDimSz,
        dimSz := padCut D ds.dimSz, chunkDimSz := padCut D ds.chunkDimSz } := by
    have hf := fields_struct (b := b) (names := ["dtype", "dsize", "order", "chunks", "shape", "chunk_shape",
      "chunk_shape_reduced", "scaled_dim_sz", "dim_sz", "chunk_dim_sz", "shuffle", "gzip"])
      (vs := [ds.dtype.tree, .uint ds.dsize, ds.order.tree, .bytes cb,
            .seq (ds.shape.map .uint), .seq (ds.chunkShape.map .uint), .seq (ds.chunkShapeReduced.map .uint),
            .seq (ds.scaledDimSz.map .uint), .seq (ds.dimSz.map .uint), .seq (ds.chunkDimSz.map .uint),
            .bool ds.shuffle, treeOption .uint ds.gzip]) (by decide) rfl
    rw [hds] at hf
    rw [ofTreeDataset, show datasetFields = List.map ascii ["dtype", "dsize", "order", "chunks", "shape",
      "chunk_shape", "chunk_shape_reduced", "scaled_dim_sz", "dim_sz", "chunk_dim_sz", "shuffle", "gzip"] from rfl,
      hf, ok_bind]
    simp only [List.map_cons, List.getD_cons_zero, List.getD_cons_succ, required]
    rw [datatype_tree ht.dtype (.same _), ok_bind, u64_tree ht.dsize (.same _), ok_bind, order_tree (.same _), ok_bind,
      ofTreeChunks, ofTreeBytes, ok_bind]
    by_cases h8 : cb.length % 8 = 0
    · rw [if_pos h8, if_neg (not_not.2 h8)]
      by_cases hm : cb.length / 8 % (D + 2) = 0
      · rw [if_pos hm, if_neg (not_not.2 hm), ok_bind, arr_padCut ht.shape, ok_bind, arr_padCut ht.chunkShape, ok_bind,
          sr_exact ht.chunkShapeReduced]
        by_cases hr : ds.chunkShapeReduced.length = D
        · rw [if_neg (not_not.2 hr), if_neg (not_not.2 hr)]
          by_cases h0 : ∀ x ∈ ds.chunkShapeReduced, x ≠ 0
          · rw [if_neg (not_not.2 h0), if_neg (not_not.2 h0), ok_bind, arr_padCut ht.scaledDimSz, ok_bind,
              arr_padCut ht.dimSz, ok_bind, arr_padCut ht.chunkDimSz, ok_bind, ofTreeBool, ok_bind,
              gzip_tree ht.gzip (.same _), ok_bind]
          · rw [if_pos h0, if_pos h0, panic_bind]
        · rw [if_pos hr, if_pos hr, err_bind]
      · rw [if_neg hm, if_pos hm, panic_bind]
    · rw [if_neg h8, if_pos h8, panic_bind]
  have hf := fields_struct (b := b) (names := ["path", "root"]) (vs := [.null, tgr]) (by decide) rfl
  have hg := fields_struct (b := b) (names := ["path", "datasets", "groups"]) (vs := [.null,
      .map [(name, .map [(ascii (["D0", "D1", "D2", "D3", "D4", "D5", "D6", "D7", "D8", "D9"].getD D ""), tds)])],
      .map []]) (by decide) rfl
  rw [hgr] at hg
  rw [Index.ofTree, show indexFields = List.map ascii ["path", "root"] from rfl, hf, ok_bind]
  simp only [List.map_cons, List.getD_cons_zero, List.getD_cons_succ, required]
  rw [optional, ok_bind, ofTreeGroup, show groupFields = List.map ascii ["path", "datasets", "groups"] from rfl, hg,
    ok_bind]
  simp only [List.map_cons, List.getD_cons_zero, List.getD_cons_succ, required]
  rw [optional, ok_bind, ofTreeMap, allOf, ofTreeEntry, if_pos (utf8_iff.2 hn.1), ofTreeDatasetD, variantOf, ok_bind]
  dsimp only
  rw [hrank, ok_bind, required, hone]
  split
  · rfl
  · split
    · rfl
    · split
      · rfl
      · split
        · rfl
        · simp [allOf, mapCollect, ofTreeMap]
          rfl

/-- C33 in a self-describing format, exactly: arrays of a wrong length are cut or filled up with zeros silently.
Structs may be stored as maps or as sequences of their fields. -/
theorem C33_lengths_tree {b : Bool} {name : Name} {D : Nat} {l : List Chunk} {ds : Dataset} (hn : IsStr name)
    (hD : D ≤ 9) (ht : Typed ds) (hl : ∀ c ∈ l, IsChunk D c) (hfit : FitsU64 (l.length * (8 * (D + 2))))
    (hr : ds.chunkShapeReduced.length = D) (h0 : ∀ x ∈ ds.chunkShapeReduced, x ≠ 0) :
    Index.ofTree (oneTree b name D (l.map Chunk.enc).flatten ds) =
      ok ⟨none, .mk none [(name, { ds with
        chunks := l, shape := padCut D ds.shape, chunkShape := padCut D ds.chunkShape,
        scaledDimSz := padCut D ds.scaledDimSz,
        dimSz := padCut D ds.dimSz, chunkDimSz := padCut D ds.chunkDimSz })] []⟩ := by
  rw [ofTree_oneTree hn hD ht, ← C33_lengths hn hD ht hl hfit hr h0 [], load_oneDataset hn hD ht]
  have : (l.map Chunk.enc).flatten.length = l.length * (8 * (D + 2)) := by
    clear hfit
    induction l with
    | nil => simp
    | cons c l ih =>
      rw [List.map_cons, List.flatten_cons, List.length_append, chunk_enc_length (hl c (by simp)).2.2.1,
        ih (fun c hc => hl c (by simp [hc])), List.length_cons]
      ring
  rw [this]; exact hfit

/-- C33 in a self-describing format, exactly: which malformed datasets panic, and which are rejected. -/
theorem C33_panics_tree {b : Bool} {name : Name} {D : Nat} {cb : List Byte} {ds : Dataset} (hn : IsStr name)
    (hD : D ≤ 9) (ht : Typed ds) (hc : FitsU64 cb.length) :
    (cb.length % (8 * (D + 2)) ≠ 0 → ∃ f, Index.ofTree (oneTree b name D cb ds) = .panic f) ∧
    (cb.length % (8 * (D + 2)) = 0 → ds.chunkShapeReduced.length ≠ D →
      Index.ofTree (oneTree b name D cb ds) = err .decode) ∧
    (cb.length % (8 * (D + 2)) = 0 → ds.chunkShapeReduced.length = D → 0 ∈ ds.chunkShapeReduced →
      Index.ofTree (oneTree b name D cb ds) = .panic .divZero) := by
  have := C33_panics hn hD ht hc []
  rw [load_oneDataset hn hD ht hc] at this
  rw [ofTree_oneTree hn hD ht]
  exact this

/-- It is what serializing such an index writes. -/
theorem oneTree_save (name : Name) (ds : Dataset) (h : ds.shape.length ≤ 9) :
    Index.saveTree ⟨none, .mk none [(name, ds)] []⟩ =
      ok (oneTree false name ds.shape.length (ds.chunks.map Chunk.enc).flatten ds) := by
  have hv : ∀ n ∈ List.range 10, variantNames.getD n [] =
      ascii (["D0", "D1", "D2", "D3", "D4", "D5", "D6", "D7", "D8", "D9"].getD n "") := by
    intro n hn
    simp only [List.range, List.range.loop, List.mem_cons, List.not_mem_nil, or_false] at hn
    rcases hn with rfl | rfl | rfl | rfl | rfl | rfl | rfl | rfl | rfl | rfl <;> rfl
  have e := hv ds.shape.length (by rw [List.mem_range]; omega)
  rw [Index.saveTree, if_pos (by simp [pathUtf8, GroupIndex.pathsUtf8, groupsUtf8]), Index.tree, GroupIndex.tree,
    List.map_cons, DatasetD.tree, e]
  rfl

/-- A dataset of rank 2 stored with a shape of three elements and a chunk shape of one: loaded with two each. -/
example (b : Bool) : Index.ofTree (oneTree b [97] 2 [] { Demo.ds with shape := [3, 4, 5], chunkShape := [2] }) =
    ok ⟨none, .mk none [([97], { Demo.ds with chunks := [], shape := [3, 4], chunkShape := [2, 0] })] []⟩ := by
  cases b <;> rfl

end Hidefix.Props
