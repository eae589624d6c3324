import Verif.Proofs.Serde
import Verif.Props.Demo

/-!
# Properties C32, C33, C51, C54: serialized indices
-/

set_option autoImplicit false

namespace Hidefix.Props
open Hidefix Hidefix.Spec Hidefix.Proofs Outcome

theorem groupsUtf8_iff {gs : List (Name × GroupIndex)} :
    groupsUtf8 gs = true ↔ ∀ e ∈ gs, e.2.pathsUtf8 = true := by
  induction gs with
  | nil => simp [groupsUtf8]
  | cons e gs ih => obtain ⟨n, g⟩ := e; simp [groupsUtf8, ih]

mutual
theorem pathsUtf8_iff : (g : GroupIndex) → (g.pathsUtf8 = true ↔ AllPaths (fun p => pathUtf8 p = true) g)
  | .mk path ds gs => by
    rw [GroupIndex.pathsUtf8, Bool.and_eq_true, groupsUtf8_iff]
    constructor
    · rintro ⟨h1, h2⟩
      exact .mk h1 fun e he => (pathsUtf8_list gs e he).1 (h2 e he)
    · intro h
      cases h with
      | mk h1 h2 => exact ⟨h1, fun e he => (pathsUtf8_list gs e he).2 (h2 e he)⟩
theorem pathsUtf8_list : (gs : List (Name × GroupIndex)) → ∀ e ∈ gs,
    (e.2.pathsUtf8 = true ↔ AllPaths (fun p => pathUtf8 p = true) e.2)
  | [], _, he => by simp at he
  | (n, g) :: gs, e, he => by
    by_cases hx : e ∈ gs
    · exact pathsUtf8_list gs e hx
    · have : e = (n, g) := by
        rcases List.mem_cons.1 he with h | h
        · exact h
        · exact absurd h hx
      subst this
      exact pathsUtf8_iff g
end

/-- Every path that is stored in the index is UTF-8. -/
def Utf8Paths (i : Index) : Prop :=
  (∀ p, i.path = some p → IsUtf8 p) ∧
    AllPaths (fun o => ∀ p, o = some p → IsUtf8 p) i.root

theorem pathUtf8_iff {o : Option Name} : pathUtf8 o = true ↔ ∀ p, o = some p → IsUtf8 p := by
  cases o <;> simp [pathUtf8, utf8_iff]

theorem save_eq (i : Index) [Decidable (Utf8Paths i)] :
    i.save = if Utf8Paths i then ok i.enc else err .decode := by
  have : (pathUtf8 i.path && i.root.pathsUtf8) = true ↔ Utf8Paths i := by
    rw [Bool.and_eq_true, pathsUtf8_iff, pathUtf8_iff]
    have e : (fun p => pathUtf8 p = true) = fun o : Option Name => ∀ p, o = some p → IsUtf8 p :=
      funext fun o => propext pathUtf8_iff
    rw [e]
    rfl
  unfold Index.save
  by_cases h : Utf8Paths i
  · rw [if_pos (this.2 h), if_pos h]
  · rw [if_neg (fun h' => h (this.1 h')), if_neg h]

theorem reads_index {i : Index} (h : IsIndex i) (hu : Utf8Paths i) :
    (∀ rest, Index.load (i.enc ++ rest) = ok i) ∧
    ∀ p, p <+: i.enc → p ≠ i.enc → Index.load p = err .decode := by
  obtain ⟨path, root⟩ := i
  obtain ⟨hp, hg⟩ := h
  have hall : AllPaths (fun p => pathUtf8 p = true) root := by
    have e : (fun p => pathUtf8 p = true) = fun o : Option Name => ∀ p, o = some p → IsUtf8 p :=
      funext fun o => propext pathUtf8_iff
    rw [e]; exact hu.2
  obtain ⟨k, hk⟩ := reads_group hg hall
  have hr : ∀ depth, k ≤ depth → Reads (fun bs => do
      let (path, bs) ← decOption decStr bs
      let (root, bs) ← decGroup depth bs
      ok ((⟨path, root⟩ : Index), bs)) (Index.enc ⟨path, root⟩) ⟨path, root⟩ := by
    intro depth hd
    refine (reads_option fun s hs => reads_str ⟨hu.1 s hs, hp s hs⟩).step ?_
    exact (hk depth hd).step (Reads.done _)
  have key : ∀ (bs : List Byte) (n : Nat), Index.load bs = (do
      let (path, bs) ← decOption decStr bs
      let (root, bs) ← decGroup (bs.length + 1 + n) bs
      ok ((⟨path, root⟩ : Index), bs)) >>= fun x => ok x.1 := by
    intro bs n
    unfold Index.load
    cases decOption decStr bs with
    | ok r =>
      obtain ⟨path, bs⟩ := r
      simp only [ok_bind]
      rw [decGroup_depth (m := bs.length + 1) (n := bs.length + 1 + n) (by omega) (by omega)]
      cases decGroup (bs.length + 1 + n) bs <;> rfl
    | err e => rfl
    | «panic» e => rfl
    | ub => rfl
    | diverge => rfl
  have key2 : ∀ (bs : List Byte) (m : Nat), bs.length < m → Index.load bs = (do
      let (path, bs) ← decOption decStr bs
      let (root, bs) ← decGroup m bs
      ok ((⟨path, root⟩ : Index), bs)) >>= fun x => ok x.1 := by
    intro bs m hm
    rw [key bs 0]
    cases ho : decOption decStr bs with
    | ok r =>
      obtain ⟨path, bs'⟩ := r
      have := decOption_shorter yields_str ho
      simp only [ok_bind]
      rw [decGroup_depth (m := bs'.length + 1 + 0) (n := m) (by omega) (by omega)]
    | err e => rfl
    | «panic» e => rfl
    | ub => rfl
    | diverge => rfl
  constructor
  · intro rest
    rw [key2 _ (k + (Index.enc ⟨path, root⟩ ++ rest).length + 1) (by omega)]
    have := (hr (k + (Index.enc ⟨path, root⟩ ++ rest).length + 1) (by omega)).1 rest
    simp only at this
    rw [this]
    rfl
  · intro p h1 h2
    rw [key2 _ (k + p.length + 1) (by omega)]
    have := (hr (k + p.length + 1) (by omega)).2 p h1 h2
    simp only at this
    rw [this]
    rfl

/-- C32: an index (any nesting of groups, any datasets) whose paths are UTF-8 can be serialized, and
deserializing the bytes gives the same index, whatever follows them. -/
theorem C32 {i : Index} (h : IsIndex i) (hu : Utf8Paths i) :
    ∃ bytes, i.save = ok bytes ∧ ∀ rest, Index.load (bytes ++ rest) = ok i := by
  classical
  exact ⟨i.enc, by rw [save_eq, if_pos hu], (reads_index h hu).1⟩

/-- C32: serializing an index with a path that is not UTF-8 is an error; it never panics. -/
theorem C32_paths (i : Index) : (¬ Utf8Paths i → i.save = err .decode) ∧
    (Utf8Paths i → ∃ bytes, i.save = ok bytes) := by
  classical
  rw [save_eq]
  exact ⟨fun h => if_neg h, fun h => ⟨_, if_pos h⟩⟩

/-- C54: what is left of a serialized index after it was cut short, anywhere (a crash while writing the
index file), is rejected with an error: it is never taken for a smaller index, and never panics. -/
theorem C54 {i : Index} {bytes : List Byte} (h : IsIndex i) (hs : i.save = ok bytes) (n : Nat)
    (hn : n < bytes.length) : Index.load (bytes.take n) = err .decode := by
  classical
  rw [save_eq] at hs
  split at hs
  · rename_i hu
    obtain rfl := Outcome.ok.inj hs
    refine (reads_index h hu).2 _ (List.take_prefix n _) fun he => ?_
    have := congrArg List.length he
    rw [List.length_take] at this
    omega
  · simp at hs

/-! ## C33 -/

/-- C33, the part that holds: deserializing any bytes at all returns, with no undefined behaviour; if it
succeeds, the result is a proper index: every array has the length its rank calls for, no divisor is 0, and
serializing and deserializing it again gives it back. What is missing: wrong lengths are not rejected
(`not_C33_length`), and some inputs panic (`not_C33_panic`). -/
theorem C33_partial (bs : List Byte) :
    Index.load bs ≠ ub ∧ Index.load bs ≠ diverge ∧
    (∀ f, Index.load bs = .panic f → f = .unwrap ∨ f = .assertion ∨ f = .divZero) ∧
    ∀ i, Index.load bs = ok i → IsIndex i ∧ ∃ bytes, i.save = ok bytes ∧ Index.load bytes = ok i := by
  have ht : Orderly (Index.load bs) := by
    unfold Index.load
    refine (orderly_option orderly_str bs).bind fun a _ => ?_
    obtain ⟨p, r⟩ := a
    exact (orderly_group (Nat.lt_succ_self _)).bind fun _ _ => trivial
  refine ⟨?_, ?_, ?_, ?_⟩
  · intro h; rw [h] at ht; exact ht
  · intro h; rw [h] at ht; exact ht
  · intro f h; rw [h] at ht; exact ht
  · intro i h
    unfold Index.load at h
    obtain ⟨⟨p, r⟩, h1, h⟩ := bind_eq_ok.1 h
    obtain ⟨⟨g, r'⟩, h2, h⟩ := bind_eq_ok.1 h
    obtain rfl := Outcome.ok.inj h
    have hp := (yields_option yields_str bs p r h1).1
    have hg := (yields_group _ r g r' h2).1
    have hi : IsIndex ⟨p, g⟩ := ⟨fun q hq => (hp q hq).2, hg.1⟩
    have hu : Utf8Paths ⟨p, g⟩ := by
      refine ⟨fun q hq => (hp q hq).1, ?_⟩
      have e : (fun p => pathUtf8 p = true) = fun o : Option Name => ∀ p, o = some p → IsUtf8 p :=
        funext fun o => propext pathUtf8_iff
      rw [← e]; exact hg.2
    obtain ⟨b, hb, hl⟩ := C32 hi hu
    exact ⟨hi, b, hb, by simpa using hl []⟩

/-- The bytes of an index with one dataset of rank 1, made of the given chunk bytes, shape and
divisors. -/
def handmade (chunks : List Byte) (shape divisors : List Nat) : List Byte :=
  encOption encBytes none ++ (encOption encBytes none ++ (encU64 1 ++ (encBytes [120] ++ (encTag 1 ++
  (Datatype.enc (.uint 2) ++ (encU64 2 ++ (ByteOrder.enc .LE ++ (encBytes chunks ++
  (encArr shape ++ (encArr [3] ++ (encArr divisors ++ (encArr [1] ++ (encArr [1] ++ (encArr [1] ++
  (encBool false ++ (encOption (leBytes 1) none ++ encU64 0))))))))))))))))

/-- The shape of the dataset `x` of an index. -/
def shapeOfX (i : Outcome Index) : Option (List Nat) :=
  match i with
  | ok i => (i.root.dataset [120]).map Dataset.shape
  | _ => none

/-- C33 fails: the serialized shape may have too few or too many elements; it is filled up with zeros or
cut, and deserialization succeeds. -/
theorem not_C33_length : shapeOfX (Index.load (handmade (Chunk.enc ⟨0, 12, [0]⟩) [] [3])) = some [0] ∧
    shapeOfX (Index.load (handmade (Chunk.enc ⟨0, 12, [0]⟩) [6, 7] [3])) = some [6] := by
  constructor <;> decide +kernel

/-- Did the call panic, and how? -/
def faultOf {α : Type} : Outcome α → Option Fault
  | .panic f => some f
  | _ => none

/-- C33 fails: chunk bytes that do not make whole words, or whole chunks, and a divisor of 0 panic. -/
theorem not_C33_panic :
    faultOf (Index.load (handmade [1, 2, 3] [6] [3])) = some .unwrap ∧
    faultOf (Index.load (handmade (encU64 7) [6] [3])) = some .assertion ∧
    faultOf (Index.load (handmade [] [6] [0])) = some .divZero := by
  refine ⟨?_, ?_, ?_⟩ <;> decide +kernel

/-! ## An indexed file is such an index -/

theorem strideScan_typed {p : Profile} {acc : Nat} {l r : List Nat} (ha : FitsU64 acc)
    (h : strideScan p acc l = ok r) : IsArr l.length r := by
  induction l generalizing acc r with
  | nil =>
    simp only [strideScan] at h
    obtain rfl := Outcome.ok.inj h
    exact ⟨rfl, by simp⟩
  | cons c l ih =>
    simp only [strideScan] at h
    obtain ⟨a, h1, h⟩ := bind_eq_ok.1 h
    obtain ⟨r', h2, h⟩ := bind_eq_ok.1 h
    obtain rfl := Outcome.ok.inj h
    have ha' : FitsU64 a := by
      unfold mul64 at h1
      unfold FitsU64
      have : W = 2 ^ 64 := rfl
      split at h1
      · rw [← Outcome.ok.inj h1]; omega
      · cases p with
        | debug => simp at h1
        | release =>
          rw [← Outcome.ok.inj h1, ← this]
          exact Nat.mod_lt _ (by decide)
    obtain ⟨h3, h4⟩ := ih ha' h2
    refine ⟨by simp [h3], ?_⟩
    intro x hx
    rcases List.mem_cons.1 hx with rfl | hx
    · exact ha
    · exact h4 x hx

theorem strides_typed {p : Profile} {l r : List Nat} (h : strides p l = ok r) : IsArr l.length r := by
  unfold strides at h
  obtain ⟨r', h1, h⟩ := bind_eq_ok.1 h
  obtain rfl := Outcome.ok.inj h
  obtain ⟨h2, h3⟩ := strideScan_typed (by unfold FitsU64; omega) h1
  exact ⟨by simpa using h2, fun x hx => h3 x (by simpa using hx)⟩

theorem divCeilAll_length {a b r : List Nat} (h : divCeilAll a b = ok r) (hl : a.length = b.length) :
    r.length = a.length := by
  induction a generalizing b r with
  | nil =>
    cases b with
    | nil => simp only [divCeilAll] at h; rw [← Outcome.ok.inj h]
    | cons y b => simp at hl
  | cons x a ih =>
    cases b with
    | nil => simp at hl
    | cons y b =>
      simp only [divCeilAll] at h
      split at h
      · simp at h
      · obtain ⟨r', h1, h⟩ := bind_eq_ok.1 h
        rw [← Outcome.ok.inj h]
        simp [ih h1 (by simpa using hl)]

theorem scanFilters_typed {fs : List H5Filter} {sh sh' : Bool} {gz gz' : Option Nat}
    (hf : ∀ z, H5Filter.deflate z ∈ fs → z < 256) (hg : ∀ z, gz = some z → z < 256)
    (h : scanFilters fs sh gz = ok (sh', gz')) : ∀ z, gz' = some z → z < 256 := by
  induction fs generalizing sh gz with
  | nil =>
    simp only [scanFilters] at h
    rw [← (Prod.mk.inj (Outcome.ok.inj h)).2]; exact hg
  | cons f fs ih =>
    cases f with
    | shuffle => exact ih (fun z hz => hf z (by simp [hz])) hg h
    | deflate z =>
      refine ih (fun z hz => hf z (by simp [hz])) ?_ h
      intro z' hz'
      obtain rfl := Option.some.inj hz'
      exact hf z (by simp)
    | other i => simp [scanFilters] at h

theorem ofH5_dsize (t : H5Type) : (Datatype.ofH5 t).dsize = t.size := by
  unfold Datatype.ofH5
  repeat' split
  all_goals rfl

theorem indexed_dataset {p : Profile} {h : H5Dataset} {ds : Dataset} (hh : IsH5Dataset h)
    (hi : DatasetD.index p h = ok ds) : IsDataset ds := by
  unfold DatasetD.index at hi
  split at hi
  swap
  · simp at hi
  rename_i hrank
  obtain ⟨-, sh, gz, t, l, n, h1, h2, h3, h4, h5, h6, h7, h8⟩ := index_inv hi
  have hcs : ∀ x ∈ chunkShapeOf h, FitsU64 x := by
    unfold chunkShapeOf
    cases hc : h.chunk with
    | none => exact hh.shape
    | some cs => exact hh.chunk cs hc
  have hl : ∀ c ∈ l, IsChunk h.shape.length c := by
    intro c hc
    rcases h5Chunks_inv h5 with ⟨a, b, recs, hr, rfl⟩ | ⟨a, off, ho, rfl⟩
    · obtain ⟨r, hr', rfl⟩ := List.mem_map.1 hc
      obtain ⟨i1, i2, i3⟩ := (hh.records recs hr).2 r hr'
      refine ⟨i1, i2, ?_, i3⟩
      unfold h5Chunks at h5
      simp only [a, b] at h5
      obtain ⟨_, -, h5⟩ := bind_eq_ok.1 h5
      obtain ⟨recs', h9, h5⟩ := bind_eq_ok.1 h5
      rw [hr] at h9
      obtain rfl := Outcome.ok.inj h9
      exact (visitChunks_inv h5).2 r hr'
    · rw [List.mem_singleton] at hc
      subst hc
      refine ⟨hh.offset off ho, hh.storageSize, by simp, ?_⟩
      intro x hx
      rw [(List.mem_replicate.1 hx).2]
      unfold FitsU64; omega
  have hlen : FitsU64 (l.length * (8 * (h.shape.length + 2))) := by
    rcases h5Chunks_inv h5 with ⟨a, b, recs, hr, rfl⟩ | ⟨a, off, ho, rfl⟩
    · rw [List.length_map]; exact (hh.records recs hr).1
    · simp only [List.length_singleton]; unfold FitsU64; omega
  have hperm : (sortChunks l).Perm l := List.mergeSort_perm _ _
  have hz := scanFilters_typed hh.level (by simp) h1
  unfold Dataset.new at h8
  obtain ⟨red, g1, h8⟩ := bind_eq_ok.1 h8
  obtain ⟨sc, g2, h8⟩ := bind_eq_ok.1 h8
  obtain ⟨s1, g3, h8⟩ := bind_eq_ok.1 h8
  obtain ⟨s2, g4, h8⟩ := bind_eq_ok.1 h8
  obtain ⟨s3, g5, h8⟩ := bind_eq_ok.1 h8
  obtain rfl := Outcome.ok.inj h8
  have hred : red = chunkShapeOf h ∧ ∀ x ∈ chunkShapeOf h, x ≠ 0 := by
    unfold strengthReduce at g1
    split at g1
    · rename_i h0
      exact ⟨(Outcome.ok.inj g1).symm, by simpa using h0⟩
    · simp at g1
  obtain ⟨rfl, hne⟩ := hred
  have e1 := strides_typed g3
  rw [divCeilAll_length g2 h4.symm] at e1
  have e3 := strides_typed g5
  rw [h4] at e3
  exact {
    rank := hrank
    dtype := by simp only [ofH5_dsize]; exact hh.dtype t h2
    dsize := by simp only [ofH5_dsize]; exact hh.dtype t h2
    chunks := fun c hc => hl c (hperm.mem_iff.1 hc)
    chunkBytes := by simp only [hperm.length_eq]; exact hlen
    shape := ⟨rfl, hh.shape⟩
    chunkShape := ⟨h4, hcs⟩
    chunkShapeReduced := ⟨h4, hcs⟩
    divisors := hne
    scaledDimSz := e1
    dimSz := strides_typed g4
    chunkDimSz := e3
    gzip := hz }

theorem indexed_group {p : Profile} {path : Option Name} {full : Name} {g : H5Group} {idx : GroupIndex}
    (hp : IsPath path) (hg : IsH5Group g) (hw : WellNamed g) (hi : indexGroup p path full g = ok idx) :
    IsGroup idx ∧ AllPaths (fun o => o = path) idx := by
  induction hg generalizing full idx with
  | @mk ds gs hdl hds hgl hgs hgg ih =>
    cases hw with
    | mk w1 w2 w3 w4 =>
    simp only [indexGroup] at hi
    obtain ⟨d, h1, hi⟩ := bind_eq_ok.1 hi
    obtain ⟨gr, h2, hi⟩ := bind_eq_ok.1 hi
    obtain rfl := Outcome.ok.inj hi
    obtain ⟨i0, i1, -⟩ := indexDatasets_inv h1
    obtain ⟨j0, j1, -⟩ := indexGroups_inv w3 h2
    have hdn := i0.nodup w1
    have hgn : (gr.map Prod.fst).Nodup := j0 ▸ w2
    rw [mapCollect_nodup hdn, mapCollect_nodup hgn]
    have hsub : ∀ e ∈ gr, IsGroup e.2 ∧ AllPaths (fun o => o = path) e.2 := by
      rintro ⟨m, x⟩ hm
      obtain ⟨g', k1, k2⟩ := j1 m x hm
      exact ih _ k1 (w4 _ k1) k2
    refine ⟨.mk hp ?_ hdn ?_ ?_ hgn ?_ fun e he => (hsub e he).1, .mk rfl fun e he => (hsub e he).2⟩
    · have := i0.length_le
      rw [List.length_map, List.length_map] at this
      unfold FitsU64 at *; omega
    · rintro ⟨m, x⟩ hm
      obtain ⟨h, k1, -, k2⟩ := (i1 m x).1 hm
      exact ⟨(hds _ k1).1, indexed_dataset (hds _ k1).2 k2⟩
    · have := congrArg List.length j0
      rw [List.length_map, List.length_map] at this
      rw [this]; exact hgl
    · rintro ⟨m, x⟩ hm
      obtain ⟨g', k1, -⟩ := j1 m x hm
      exact hgs _ k1

theorem allPaths_mono {P Q : Option Name → Prop} (h : ∀ o, P o → Q o) {g : GroupIndex}
    (hg : AllPaths P g) : AllPaths Q g := by
  induction hg with
  | mk h1 _ ih => exact .mk (h _ h1) ih

/-- C32 for the index of a file: whatever indexing a file gives can be serialized (if the path of the file
is UTF-8) and loaded back, with the same datasets under the same names. -/
theorem C32_indexed {p : Profile} {fpath : Option Name} {root : H5Group} {idx : Index}
    (hp : IsPath fpath) (hu : ∀ s, fpath = some s → IsUtf8 s) (hg : IsH5Group root)
    (hw : WellNamed root) (hi : Index.indexFile p fpath root = ok idx) :
    ∃ bytes, idx.save = ok bytes ∧ Index.load bytes = ok idx := by
  unfold Index.indexFile at hi
  obtain ⟨g, h1, hi⟩ := bind_eq_ok.1 hi
  obtain rfl := Outcome.ok.inj hi
  obtain ⟨h2, h3⟩ := indexed_group hp hg hw h1
  have h4 := allPaths_mono (Q := fun o => ∀ p, o = some p → IsUtf8 p)
    (fun o ho => by rw [ho]; exact hu) h3
  obtain ⟨b, hb, hl⟩ := C32 (i := ⟨fpath, g⟩) ⟨hp, h2⟩ ⟨hu, h4⟩
  exact ⟨b, hb, by simpa using hl []⟩

/-- The demo file is such a file. -/
theorem demoRoot_isH5 : IsH5Group demoRoot := by
  have hd : IsH5Dataset demoH5 := by
    refine ⟨by simp [demoH5, FitsU64], ?_, ?_, by simp [demoH5], by simp [demoH5], by simp [demoH5, FitsU64], ?_⟩
    · intro cs hcs; obtain rfl := Option.some.inj hcs; simp [FitsU64]
    · intro t ht; obtain rfl := Outcome.ok.inj ht; simp [FitsU64]
    · intro rs hrs; obtain rfl := Outcome.ok.inj hrs; simp [FitsU64, demoH5]
  have hd' : IsH5Dataset { demoH5 with isChunked := false } :=
    ⟨hd.shape, hd.chunk, hd.dtype, hd.level, hd.offset, hd.storageSize, hd.records⟩
  have hs : ∀ b : Byte, b ≤ 127 → IsStr [b] := fun b hb => ⟨utf8_iff.1 (by simp [utf8, hb]), by simp [FitsU64]⟩
  refine .mk (by simp [FitsU64]) ?_ (by simp [FitsU64]) ?_ ?_
  · intro e he; rw [List.mem_singleton] at he; subst he; exact ⟨hs _ (by decide), hd'⟩
  · intro e he; rw [List.mem_singleton] at he; subst he; exact hs _ (by decide)
  · intro e he; rw [List.mem_singleton] at he; subst he
    refine .mk (by simp [FitsU64]) (by simp) (by simp [FitsU64]) ?_ ?_
    · intro e he; rw [List.mem_singleton] at he; subst he; exact hs _ (by decide)
    · intro e he; rw [List.mem_singleton] at he; subst he
      refine .mk (by simp [FitsU64]) ?_ (by simp [FitsU64]) (by simp) (by simp)
      intro e he; rw [List.mem_singleton] at he; subst he; exact ⟨hs _ (by decide), hd⟩

/-- A path with a letter outside ASCII is UTF-8; a lone continuation byte is not. -/
example : IsUtf8 [47, 195, 166, 46, 110, 99] ∧ ¬ IsUtf8 [47, 166] := by
  simp only [← utf8_iff]; decide

/-! ## C51 -/

/-- C51: `hfxlst` returns what the first compiled-in parser that accepts the bytes returns, and reports an
error exactly if every compiled-in parser does. (Parsers that return: a parser's panic is a panic.) -/
theorem C51 {α : Type} (flexbuffers bincode : Option (List Byte → Outcome α)) (bs : List Byte)
    (hf : ∀ d, flexbuffers = some d → (∃ a, d bs = ok a) ∨ ∃ e, d bs = err e)
    (hb : ∀ d, bincode = some d → (∃ a, d bs = ok a) ∨ ∃ e, d bs = err e) :
    (∀ a, readIndex flexbuffers bincode bs = ok a ↔
      (∃ d, flexbuffers = some d ∧ d bs = ok a) ∨
      ((∀ d, flexbuffers = some d → ∃ e, d bs = err e) ∧ ∃ d, bincode = some d ∧ d bs = ok a)) ∧
    ((∃ e, readIndex flexbuffers bincode bs = err e) ↔
      (∀ d, flexbuffers = some d → ∃ e, d bs = err e) ∧ ∀ d, bincode = some d → ∃ e, d bs = err e) ∧
    ((∃ a, readIndex flexbuffers bincode bs = ok a) ∨ ∃ e, readIndex flexbuffers bincode bs = err e) := by
  cases flexbuffers with
  | none =>
    cases bincode with
    | none => simp [readIndex]
    | some db =>
      rcases hb db rfl with ⟨a, h⟩ | ⟨e, h⟩ <;> simp [readIndex, h]
  | some df =>
    rcases hf df rfl with ⟨a, h⟩ | ⟨e, h⟩
    · simp [readIndex, h]
    · cases bincode with
      | none => simp [readIndex, h]
      | some db =>
        rcases hb db rfl with ⟨a, h'⟩ | ⟨e', h'⟩ <;> simp [readIndex, h, h']

/-- C51: an index written by `hfxidx` with bincode is loaded by `hfxlst`, if the flexbuffers parser is not
compiled in or rejects the bytes. -/
theorem C51_bincode {i : Index} {bytes : List Byte} (h : IsIndex i) (hs : i.save = ok bytes)
    (flexbuffers : Option (List Byte → Outcome Index))
    (hf : ∀ d, flexbuffers = some d → ∃ e, d bytes = err e) :
    readIndex flexbuffers (some Index.load) bytes = ok i := by
  have hu : Utf8Paths i := by
    by_contra hn
    rw [(C32_paths i).1 hn] at hs
    simp at hs
  obtain ⟨b, hb, hl⟩ := C32 h hu
  rw [hs] at hb
  obtain rfl := Outcome.ok.inj hb
  have hl := hl []
  rw [List.append_nil] at hl
  cases flexbuffers with
  | none => simp [readIndex, hl]
  | some d =>
    obtain ⟨e, he⟩ := hf d rfl
    simp [readIndex, he, hl]

end Hidefix.Props
