import Verif.Props.Select
import Verif.Props.Index
import Verif.Props.Groups
import Verif.Props.Builds

/-!
# Exactly when: what the code does where C26, C30, C35, C43 and C46 fail

The theorems with the suffix `_partial` leave out cases in which the property is false. Here is what
happens in all of them.
-/

set_option autoImplicit false

namespace Hidefix.Props
open Hidefix Hidefix.Spec Hidefix.Proofs Outcome

/-! ## C26 -/

theorem denotesAll_cons {d k : Nat} {e : RangeExpr} {ds ks : List Nat} {es : List RangeExpr} :
    DenotesAll (d :: ds) (e :: es) (k :: ks) ↔ Denotes d e k ∧ DenotesAll ds es ks := by
  simp [DenotesAll]

theorem ofExpr_release {e : RangeExpr} {dim : Nat} (hu : IsU64 e) :
    ∃ x, Extent.ofExpr .release e = ok x ∧ ∀ k, (extentBox dim x).1 ≤ k ∧
      k < (extentBox dim x).1 + (extentBox dim x).2 ↔ Denotes dim e k ∧ ¬ EndsAtMax e := by
  by_cases hm : EndsAtMax e
  · cases e with
    | rangeToIncl b =>
      simp only [EndsAtMax] at hm
      have e1 : add64 .release b 1 = ok 0 := by
        unfold add64; rw [if_neg (by omega), hm]; simp
      refine ⟨.sliceEnd 0 0, by unfold Extent.ofExpr; simp only [e1, ok_bind], fun k => ?_⟩
      simp [extentBox, EndsAtMax, hm]
    | rangeIncl a b =>
      simp only [EndsAtMax] at hm
      have e1 : add64 .release b 1 = ok 0 := by
        unfold add64; rw [if_neg (by omega), hm]; simp
      refine ⟨.sliceEnd a 0, by unfold Extent.ofExpr; simp only [e1, ok_bind], fun k => ?_⟩
      simp [extentBox, EndsAtMax, hm]
    | _ => simp [EndsAtMax] at hm
  · obtain ⟨x, h1, h2⟩ := ofExpr_box (p := .release) (dim := dim) hu hm
    exact ⟨x, h1, fun k => by rw [← h2 k]; simp [hm]⟩

theorem ofExpr_debug {e : RangeExpr} (hm : EndsAtMax e) : Extent.ofExpr .debug e = .panic .overflow := by
  cases e with
  | rangeToIncl b =>
    simp only [EndsAtMax] at hm
    unfold Extent.ofExpr add64; simp only [if_neg (by omega : ¬ b + 1 < W)]; rfl
  | rangeIncl a b =>
    simp only [EndsAtMax] at hm
    unfold Extent.ofExpr add64; simp only [if_neg (by omega : ¬ b + 1 < W)]; rfl
  | _ => simp [EndsAtMax] at hm

/-- C26, release builds, all expressions: exactly the denoted coordinates are selected, but none at all if
one of the expressions is an inclusive range up to `u64::MAX`. -/
theorem C26_release {shape : List Nat} {es : List RangeExpr}
    (hl : es.length = shape.length) (hu : ∀ e ∈ es, IsU64 e) :
    ∃ ext start count, Extents.ofExpr .release (.list es) = ok ext ∧
      ext.getStartCountSized shape = ok (start, count) ∧
      ∀ x, InBox start count x ↔ DenotesAll shape es x ∧ ∀ e ∈ es, ¬ EndsAtMax e := by
  have key : ∃ l, Extents.convAll .release es = ok l ∧ l.length = shape.length ∧
      ∀ x, InBox ((List.zipWith extentBox shape l).map Prod.fst)
        ((List.zipWith extentBox shape l).map Prod.snd) x ↔
          DenotesAll shape es x ∧ ∀ e ∈ es, ¬ EndsAtMax e := by
    induction es generalizing shape with
    | nil =>
      match shape, hl with
      | [], _ =>
        refine ⟨[], rfl, rfl, fun x => ?_⟩
        cases x <;> simp [InBox, DenotesAll]
    | cons e es ih =>
      match shape, hl with
      | d :: shape, hl =>
        obtain ⟨l, h1, h2, h3⟩ := ih (shape := shape) (by simpa using hl)
          (fun e he => hu e (by simp [he]))
        obtain ⟨x, h4, h5⟩ := ofExpr_release (dim := d) (hu e (by simp))
        refine ⟨x :: l, ?_, by simp [h2], fun y => ?_⟩
        · unfold Extents.convAll; rw [h4, ok_bind, h1, ok_bind]
        · cases y with
          | nil => simp [InBox, DenotesAll]
          | cons k ks =>
            simp only [List.zipWith_cons_cons, List.map_cons, inBox_cons, denotesAll_cons, h3 ks, h5 k,
              List.forall_mem_cons]
            tauto
  obtain ⟨l, h1, h2, h3⟩ := key
  exact ⟨.extent l, _, _, by unfold Extents.ofExpr; simp only [h1, ok_bind],
    (selects_iff _ _ _ _).2 (by unfold Selects; exact ⟨h2, rfl, rfl⟩), h3⟩

/-- C26, debug builds: an inclusive range up to `u64::MAX` anywhere in a selection is a panic. -/
theorem C26_debug {es : List RangeExpr} (hu : ∀ e ∈ es, IsU64 e) (hm : ∃ e ∈ es, EndsAtMax e) :
    Extents.ofExpr .debug (.list es) = .panic .overflow := by
  have key : Extents.convAll .debug es = .panic .overflow := by
    induction es with
    | nil => simp at hm
    | cons e es ih =>
      unfold Extents.convAll
      by_cases he : EndsAtMax e
      · rw [ofExpr_debug he]; rfl
      · obtain ⟨x, h1, -⟩ := ofExpr_box (p := .debug) (dim := 0) (hu e (by simp)) he
        rw [h1, ok_bind, ih (fun e he => hu e (by simp [he]))
          (by obtain ⟨e', h', h''⟩ := hm
              rcases List.mem_cons.1 h' with rfl | h'
              · exact absurd h'' he
              · exact ⟨e', h', h''⟩)]
        rfl
  unfold Extents.ofExpr; simp only [key]; rfl

example : ∃ ext start count, Extents.ofExpr .release (.list [.rangeIncl 2 (W - 1), .full]) = ok ext ∧
    ext.getStartCountSized [5, 4] = ok (start, count) ∧ ∀ x, ¬ InBox start count x := by
  obtain ⟨ext, s, c, h1, h2, h3⟩ := C26_release (shape := [5, 4]) (es := [.rangeIncl 2 (W - 1), .full]) rfl
    (by simp [IsU64, W])
  refine ⟨ext, s, c, h1, h2, fun x hx => ?_⟩
  exact ((h3 x).1 hx).2 (.rangeIncl 2 (W - 1)) (by simp) (by simp [EndsAtMax, W])

/-! ## C30 -/

theorem containsAux_eq {p : Profile} {x off cs : List Nat} (h1 : x.length = cs.length)
    (h2 : x.length = off.length) (ho : ∀ o ∈ off, o < W) (hc : ∀ c ∈ cs, c < W) :
    Chunk.containsAux p x off cs = ok .eq ↔
      InBox off cs x ∧ ∀ oc ∈ off.zip cs, oc.1 + oc.2 < W := by
  induction x generalizing off cs with
  | nil =>
    match off, cs, h1, h2 with
    | [], [], _, _ => simp [Chunk.containsAux, InBox]
  | cons k x ih =>
    match off, cs, h1, h2 with
    | o :: off, c :: cs, h1, h2 =>
      have i := ih (off := off) (cs := cs) (by simpa using h1) (by simpa using h2)
        (fun o h => ho o (by simp [h])) (fun c h => hc c (by simp [h]))
      have ho' := ho o (by simp)
      have hc' := hc c (by simp)
      unfold Chunk.containsAux
      rw [inBox_cons, List.zip_cons_cons, List.forall_mem_cons]
      simp only
      by_cases hk : k < o
      · rw [if_pos hk]; simp; omega
      · rw [if_neg hk]
        by_cases hoc : o + c < W
        · rw [add64_of_lt hoc, ok_bind]
          by_cases hk' : o + c ≤ k
          · rw [if_pos hk']; simp; omega
          · rw [if_neg hk', i]
            have : o ≤ k ∧ k < o + c := by omega
            simp [hoc, this]
        · unfold add64
          rw [if_neg hoc]
          cases p with
          | debug => simp [hoc, Bind.bind, Outcome.bind]
          | release =>
            have : (o + c) % W ≤ k := by
              have : (o + c) % W = o + c - W := by
                rw [Nat.mod_eq_sub_mod (by omega), Nat.mod_eq_of_lt (by omega)]
              omega
            simp only [ok_bind, if_pos this]
            simp [hoc]

/-- C30, all chunks: `contains` says `Equal` exactly for the points of the chunk's box, provided the end
of the box is a `u64` in every dimension, and never otherwise; in particular never wrongly. -/
theorem C30_exact {p : Profile} (ch : Chunk) (cs x : List Nat) (ho : ∀ o ∈ ch.offset, o < W)
    (hc : ∀ c ∈ cs, c < W) :
    ch.contains p x cs = ok .eq ↔ (x.length = cs.length ∧ x.length = ch.offset.length) ∧
      InBox ch.offset cs x ∧ ∀ oc ∈ ch.offset.zip cs, oc.1 + oc.2 < W := by
  by_cases h : x.length = cs.length ∧ x.length = ch.offset.length
  · rw [← containsAux_eq (p := p) h.1 h.2 ho hc]
    unfold Chunk.contains assertP
    simp only [beq_iff_eq, h.1, if_true, ok_bind, ← h.2, true_and, and_self]
  · rw [C30_rank ch cs x (by tauto)]
    simp [h]

example (p : Profile) : Chunk.contains p ⟨0, 1, [W - 1]⟩ [W - 1] [1] ≠ ok .eq := by
  rw [Ne, C30_exact ⟨0, 1, [W - 1]⟩ [1] [W - 1] (by simp [W]) (by simp [W])]
  simp [W]

/-! ## C43 -/

theorem validAux_iff {p : Profile} {cs : List Nat} {l : List Chunk} :
    (Dataset.validAux p cs l = ok true ↔ ∀ c ∈ l, c.contains p c.offset cs = ok .eq) ∧
    Dataset.validAux p cs l ≠ ok false := by
  induction l with
  | nil => simp [Dataset.validAux]
  | cons c l ih =>
    unfold Dataset.validAux
    rw [List.forall_mem_cons]
    cases h : c.contains p c.offset cs with
    | ok r =>
      rw [ok_bind]
      cases r
      · simp [ensure, Bind.bind, Outcome.bind]
      · simpa using ih
      · simp [ensure, Bind.bind, Outcome.bind]
    | err e => simp [Bind.bind, Outcome.bind]
    | panic f => simp [Bind.bind, Outcome.bind]
    | ub => simp [Bind.bind, Outcome.bind]
    | diverge => simp [Bind.bind, Outcome.bind]

/-- C43, all datasets: `valid` succeeds exactly if every chunk has the rank of the chunk shape and ends
below 2^64, and the chunk shape (if there is a chunk) has no zero. Whether the chunks are in order, aligned,
different, complete or inside the dataset plays no role; and `valid` never returns `Ok(false)`. -/
theorem C43_exact {p : Profile} (ds : Dataset) (hc : ∀ c ∈ ds.chunkShape, c < W)
    (ho : ∀ ch ∈ ds.chunks, ∀ o ∈ ch.offset, o < W) :
    (ds.valid p = ok true ↔ ∀ ch ∈ ds.chunks, ch.offset.length = ds.chunkShape.length ∧
      ∀ oc ∈ ch.offset.zip ds.chunkShape, 0 < oc.2 ∧ oc.1 + oc.2 < W) ∧
    ds.valid p ≠ ok false := by
  refine ⟨?_, validAux_iff.2⟩
  unfold Dataset.valid
  rw [validAux_iff.1]
  refine forall_congr' fun ch => forall_congr' fun hch => ?_
  rw [C30_exact ch _ _ (ho ch hch) hc]
  have key : ∀ off cs : List Nat, off.length = cs.length →
      (InBox off cs off ↔ ∀ oc ∈ off.zip cs, 0 < oc.2) := by
    intro off
    induction off with
    | nil =>
      intro cs h
      match cs, h with
      | [], _ => simp [InBox]
    | cons o off ih =>
      intro cs h
      match cs, h with
      | c :: cs, h =>
        rw [inBox_cons, ih cs (by simpa using h), List.zip_cons_cons, List.forall_mem_cons]
        simp only [Nat.le_refl, true_and]
        exact and_congr (by omega) Iff.rfl
  constructor
  · rintro ⟨⟨h1, -⟩, h2, h3⟩
    exact ⟨h1, fun oc hoc => ⟨(key _ _ h1).1 h2 oc hoc, h3 oc hoc⟩⟩
  · rintro ⟨h1, h2⟩
    exact ⟨⟨h1, rfl⟩, (key _ _ h1).2 fun oc hoc => (h2 oc hoc).1, fun oc hoc => (h2 oc hoc).2⟩

/-- Chunks in a wrong place, outside of the dataset, all the same. -/
example (p : Profile) : { Demo.ds with chunks := [⟨0, 9, [7, 9]⟩, ⟨0, 9, [7, 9]⟩] }.valid p = ok true :=
  (C43_exact _ (by decide) (by decide)).1.2 (by decide)

/-! ## C35 -/

theorem expectedChunks_release {acc : Nat} {ss cs : List Nat} (hl : ss.length = cs.length)
    (hp : ∀ c ∈ cs, 0 < c) (ha : acc < W) :
    expectedChunks .release acc ss cs = ok (acc * (gridDims ss cs).prod % W) := by
  induction ss generalizing acc cs with
  | nil => simp [expectedChunks, gridDims, Nat.mod_eq_of_lt ha]
  | cons s ss ih =>
    match cs, hl with
    | c :: cs, hl =>
      have hc : 0 < c := hp c (by simp)
      have e : (gridDims (s :: ss) (c :: cs)).prod = (s + c - 1) / c * (gridDims ss cs).prod := by
        simp [gridDims]
      simp only [expectedChunks]
      rw [if_neg (by omega), e, ← Nat.mul_assoc]
      have hm : mul64 .release acc (divCeil s c) = ok (acc * ((s + c - 1) / c) % W) := by
        unfold mul64
        rw [divCeil_eq s c hc]
        split
        · rename_i h; rw [Nat.mod_eq_of_lt h]
        · rfl
      rw [hm, ok_bind, ih (by simpa using hl) (fun c h => hp c (by simp [h])) (Nat.mod_lt _ (by decide))]
      rw [Nat.mod_mul_mod]

theorem expectedChunks_over {acc : Nat} {ss cs : List Nat} (hl : ss.length = cs.length)
    (hp : ∀ c ∈ cs, 0 < c) (ha : acc < W) (hW : W ≤ acc * (gridDims ss cs).prod) :
    expectedChunks .debug acc ss cs = .panic .overflow := by
  induction ss generalizing acc cs with
  | nil => simp [gridDims] at hW; omega
  | cons s ss ih =>
    match cs, hl with
    | c :: cs, hl =>
      have hc : 0 < c := hp c (by simp)
      have e : (gridDims (s :: ss) (c :: cs)).prod = (s + c - 1) / c * (gridDims ss cs).prod := by
        simp [gridDims]
      simp only [expectedChunks]
      rw [e, ← Nat.mul_assoc] at hW
      rw [if_neg (by omega)]
      unfold mul64
      rw [divCeil_eq s c hc]
      split
      · rename_i h
        rw [ok_bind]
        exact ih (by simpa using hl) (fun c h => hp c (by simp [h])) h hW
      · rfl

theorem strideScan_release (acc : Nat) (l : List Nat) : ∃ r, strideScan .release acc l = ok r := by
  induction l generalizing acc with
  | nil => exact ⟨_, rfl⟩
  | cons c l ih =>
    have : ∃ m, mul64 .release acc c = ok m := by
      unfold mul64
      split
      · exact ⟨_, rfl⟩
      · exact ⟨_, rfl⟩
    obtain ⟨m, hm⟩ := this
    obtain ⟨r, hr⟩ := ih m
    unfold strideScan
    rw [hm, ok_bind, hr, ok_bind]
    exact ⟨_, rfl⟩

theorem new_release {t : Datatype} {o : ByteOrder} {shape cs : List Nat} {chunks : List Chunk}
    {sh : Bool} {gz : Option Nat} (hp : ∀ c ∈ cs, 0 < c) :
    ∃ ds, Dataset.new .release t o shape chunks cs sh gz = ok ds := by
  have hst : ∀ l, ∃ r, strides .release l = ok r := by
    intro l
    obtain ⟨r, hr⟩ := strideScan_release 1 l.reverse
    unfold strides
    rw [hr, ok_bind]
    exact ⟨_, rfl⟩
  obtain ⟨a, ha⟩ := hst shape
  obtain ⟨b, hb⟩ := hst cs
  have hd : ∃ r, divCeilAll shape cs = ok r := by
    clear ha hb
    induction shape generalizing cs with
    | nil => exact ⟨_, by unfold divCeilAll; rfl⟩
    | cons s shape ih =>
      cases cs with
      | nil => exact ⟨_, by unfold divCeilAll; rfl⟩
      | cons c cs =>
        have hc := hp c (by simp)
        obtain ⟨r, hr⟩ := ih (cs := cs) (fun c h => hp c (by simp [h]))
        unfold divCeilAll
        rw [if_neg (by omega), hr, ok_bind]
        exact ⟨_, rfl⟩
  obtain ⟨c, hc⟩ := hd
  obtain ⟨d, hd⟩ := hst c
  have e0 : strengthReduce cs = ok cs := by
    unfold strengthReduce
    rw [if_pos]
    exact List.all_eq_true.2 fun c hc => by have := hp c hc; simp; omega
  unfold Dataset.new
  rw [e0, ok_bind, hc, ok_bind, hd, ok_bind, ha, ok_bind, hb, ok_bind]
  exact ⟨_, rfl⟩

/-- C35, release builds, all datasets: a chunked dataset (otherwise all right) is indexed
exactly if the number of stored chunks is the number of cells modulo 2^64, and refused as incomplete
otherwise. -/
theorem C35_release {h : H5Dataset} {t : H5Type} {cs : List Nat} {sh : Bool}
    {gz : Option Nat} {recs : List H5ChunkInfo} (hch : h.isChunked = true) (hoff : h.offset = none)
    (hcs : h.chunk = some cs) (hl : h.shape.length = cs.length) (hp : ∀ c ∈ cs, 0 < c)
    (ht : h.dtype = ok t)
    (hfl : scanFilters h.filters false none = ok (sh, gz)) (hnum : h.numChunks.isSome)
    (hr : h.records = ok recs) (hrank : ∀ r ∈ recs, r.offset.length = h.shape.length) :
    if recs.length = (gridDims h.shape cs).prod % W
    then ∃ ds, Dataset.index .release h.shape.length h = ok ds
    else Dataset.index .release h.shape.length h = err .chunkCount := by
  obtain ⟨nc, hnc⟩ := Option.isSome_iff_exists.1 hnum
  have h2 : h5ChunkShape h.shape.length h = ok cs := by
    unfold h5ChunkShape toArray; rw [hcs]; simp only; rw [if_pos hl.symm]
  have h3 : h5Chunks h.shape.length h = ok (recs.map recordChunk) := by
    unfold h5Chunks
    rw [hch, hoff]
    simp only
    rw [hnc]
    simp only [expectSome, ok_bind, hr]
    exact visitChunks_ok hrank
  have h4 : expectedChunks .release 1 h.shape cs = ok ((gridDims h.shape cs).prod % W) := by
    have := expectedChunks_release (acc := 1) hl hp (by decide)
    rwa [Nat.one_mul] at this
  have h5 : (sortChunks (recs.map recordChunk)).length = recs.length := by
    have e1 := (List.mergeSort_perm (recs.map recordChunk) fun a b => a.cmp b != .gt).length_eq
    unfold sortChunks
    rw [e1, List.length_map]
  unfold Dataset.index
  simp only [beq_self_eq_true, ensure, if_true, ok_bind, hfl, ht, h2, h3, h4, h5]
  by_cases hn : recs.length = (gridDims h.shape cs).prod % W
  · have hn' : (recs.length == (gridDims h.shape cs).prod % W) = true := by simpa using hn
    rw [if_pos hn]
    simp only [hn', if_true, ok_bind]
    exact new_release hp
  · have hn' : (recs.length == (gridDims h.shape cs).prod % W) = false := by simpa using hn
    rw [if_neg hn]
    simp only [hn']
    rfl

/-- C35, debug builds: 2^64 cells or more are a panic. -/
theorem C35_debug {h : H5Dataset} {t : H5Type} {cs : List Nat} {sh : Bool}
    {gz : Option Nat} {recs : List H5ChunkInfo} (hch : h.isChunked = true) (hoff : h.offset = none)
    (hcs : h.chunk = some cs) (hl : h.shape.length = cs.length) (hp : ∀ c ∈ cs, 0 < c)
    (ht : h.dtype = ok t)
    (hfl : scanFilters h.filters false none = ok (sh, gz)) (hnum : h.numChunks.isSome)
    (hr : h.records = ok recs) (hrank : ∀ r ∈ recs, r.offset.length = h.shape.length)
    (hW : W ≤ (gridDims h.shape cs).prod) :
    Dataset.index .debug h.shape.length h = .panic .overflow := by
  obtain ⟨nc, hnc⟩ := Option.isSome_iff_exists.1 hnum
  have h2 : h5ChunkShape h.shape.length h = ok cs := by
    unfold h5ChunkShape toArray; rw [hcs]; simp only; rw [if_pos hl.symm]
  have h3 : h5Chunks h.shape.length h = ok (recs.map recordChunk) := by
    unfold h5Chunks
    rw [hch, hoff]
    simp only
    rw [hnc]
    simp only [expectSome, ok_bind, hr]
    exact visitChunks_ok hrank
  have h4 : expectedChunks .debug 1 h.shape cs = .panic .overflow :=
    expectedChunks_over hl hp (by decide) (by rw [Nat.one_mul]; exact hW)
  unfold Dataset.index
  simp only [beq_self_eq_true, ensure, if_true, ok_bind, hfl, ht, h2, h3, h4]
  rfl

example : ∃ ds, Dataset.index .release 2 hugeSparse = ok ds := by
  have := C35_release (h := hugeSparse) (t := h5i16) (cs := [1, 1]) (sh := false) (gz := none) (recs := [])
    rfl rfl rfl rfl (by decide) rfl rfl rfl rfl (by simp)
  rwa [if_pos (by decide)] at this

example : Dataset.index .debug 2 hugeSparse = .panic .overflow :=
  C35_debug (h := hugeSparse) (t := h5i16) (cs := [1, 1]) (sh := false) (gz := none) (recs := [])
    rfl rfl rfl rfl (by decide) rfl rfl rfl rfl (by simp) (by decide)

/-! ## C46 -/

/-- C46, the other half, exactly: a chunk that decompresses to too few bytes is read as if the missing
bytes had been stored as zeros. -/
theorem C46_short {p : Profile} {io : Io} {file : List Byte} {addr size chunkSz dsz : Nat}
    {gz sh : Bool} {d : List Byte} (hd : io.inflate ((file.drop addr).take size) = some d)
    (hsz : 0 < size) (hl : d.length ≤ chunkSz) :
    readChunk p io file addr size chunkSz dsz gz sh =
      readChunk p { io with inflate := fun _ => some (d ++ List.replicate (chunkSz - d.length) 0) }
        file addr size chunkSz dsz gz sh := by
  unfold readChunk
  cases allocOk size with
  | ok u =>
    rw [ok_bind, ok_bind]
    cases hr : readRaw file addr size with
    | ok raw =>
      rw [ok_bind, ok_bind]
      have hraw : raw = (file.drop addr).take size := by
        unfold readRaw at hr
        split at hr
        · simp at hr
        split at hr
        · exact (Outcome.ok.inj hr).symm
        split at hr
        · omega
        · simp at hr
      unfold decodeChunk
      cases gz with
      | false => rfl
      | true =>
        have : decompress io.inflate raw (List.replicate chunkSz 0) =
            decompress (fun _ => some (d ++ List.replicate (chunkSz - d.length) 0)) raw
              (List.replicate chunkSz 0) := by
          unfold decompress
          rw [hraw, hd]
          simp only [List.length_replicate, List.length_append, hl, if_true]
          rw [if_pos (by omega)]
          simp [List.drop_replicate]; omega
        simp only [this]
    | err e => rfl
    | panic f => rfl
    | ub => rfl
    | diverge => rfl
  | err e => rfl
  | panic f => rfl
  | ub => rfl
  | diverge => rfl

example (p : Profile) : readChunk p ⟨some shortFile, Demo.inflate⟩ shortFile 9 8 8 2 true true =
    readChunk p ⟨some shortFile, fun _ => some [0, 1, 4, 5, 100, 100, 101, 0]⟩ shortFile 9 8 8 2 true true :=
  C46_short (d := [0, 1, 4, 5, 100, 100, 101]) (by decide) (by decide) (by decide)

/-! ## C49 -/

/-- C49 for a damaged index: a chunk that the index places (partly) outside the file is an I/O error, unless
its size is 2^63 or more: then the allocation of the buffer panics. In synchronous and asynchronous reads. -/
theorem C49_outside {p : Profile} {rt : Rt} {io : Io} {file : List Byte} {addr size chunkSz dsz : Nat}
    {gz sh : Bool} (h0 : 0 < size) (hout : file.length < addr + size) :
    let r : Outcome (List Byte) := if size < 2 ^ 63 then err .io else panic .capacity
    readChunk p io file addr size chunkSz dsz gz sh = r ∧
    readChunkTokio p rt io file addr size chunkSz dsz gz sh = r := by
  have h63 : (2 : Nat) ^ 63 = 9223372036854775808 := by decide
  have hraw : readRaw file addr size = err .io := by
    unfold readRaw
    split
    · rfl
    · rw [if_neg (by omega), if_neg (by omega)]
  simp only [h63]
  unfold readChunk readChunkTokio allocOk
  by_cases hs : size < 9223372036854775808
  · rw [if_pos hs, if_pos hs, ok_bind, ok_bind, hraw]
    exact ⟨rfl, rfl⟩
  · rw [if_neg hs, if_neg hs]
    exact ⟨rfl, rfl⟩

example (p : Profile) : readChunk p Demo.io Demo.file 30 9 8 2 true true = err .io :=
  (C49_outside (rt := .none) (by decide) (by decide)).1

example (p : Profile) : readChunk p Demo.io Demo.file 9 (2 ^ 63) 8 2 true true = panic .capacity :=
  (C49_outside (rt := .none) (by decide) (by decide)).1

end Hidefix.Props
