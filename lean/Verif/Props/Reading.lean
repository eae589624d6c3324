import Verif.Props.Slicing
import Verif.Proofs.Reads
import Verif.Model.S3

/-!
# Properties C01, C07 - C11, C13, C14: reading a selection
-/

set_option autoImplicit false

namespace Hidefix.Props
open Hidefix Hidefix.Spec Hidefix.Proofs Outcome

/-! ## C01 -/

/-- C01 for `CacheReader` (any history of earlier reads), restricted to the selections of
`Spec.Good`. Missing: the other selections, for some of which the claim is false (`not_C01`). -/
theorem C01_cache_partial {p : Profile} {io : Io} {file : List Byte} {ds : Dataset}
    {A : List Nat → List Byte} {ext : Extents} {start count : List Nat} {rd : CacheReader}
    {dst : List Byte} (h : Setup p io file ds A ext start count) (hg : Good p ds start count)
    (hrd : CacheReader.withDataset p ds = ok rd) (hist : List (Extents × List Byte))
    (hd : count.prod * ds.dsize ≤ dst.length) :
    ((afterReads p io file ds rd hist).readTo p io file ds ext dst).1 = ok (count.prod * ds.dsize) ∧
    ((afterReads p io file ds rd hist).readTo p io file ds ext dst).2.1 =
      selected A start count ++ dst.drop (count.prod * ds.dsize) := by
  obtain ⟨items, h1, -, h3, h4, h5⟩ := setup_core h hg
  obtain ⟨e1, e2⟩ := cache_read (io := io) (file := file) h.addr hrd hist ext dst
  obtain ⟨-, e3, -⟩ := withDataset_inv (io := io) (file := file) hrd
  rw [h3] at e3
  obtain e3 := Outcome.ok.inj e3
  rw [← e3] at e1 e2
  rw [nocacheReadTo_dst h1 hd h4] at e1 e2
  refine ⟨e1, ?_⟩
  rw [e2, h5, blit_zero, selected_length h]

/-- The reader can be constructed. -/
theorem C01_cache_open {p : Profile} {io : Io} {file : List Byte} {ds : Dataset}
    {A : List Nat → List Byte} {ext : Extents} {start count : List Nat}
    (h : Setup p io file ds A ext start count) : ∃ rd, CacheReader.withDataset p ds = ok rd := by
  obtain ⟨rd, h1, -⟩ := withDataset_ok h.wf h.sizes
  exact ⟨rd, h1⟩

/-- C01 for `Direct::read_to`, restricted like `C01_cache_partial`. -/
theorem C01_direct_partial {p : Profile} {io : Io} {file : List Byte} {ds : Dataset}
    {A : List Nat → List Byte} {ext : Extents} {start count : List Nat}
    {sort : List GItem → List GItem} {dst : List Byte} (h : Setup p io file ds A ext start count)
    (hg : Good p ds start count) (hsort : ∀ l, SortedByAddr l (sort l))
    (hd : count.prod * ds.dsize ≤ dst.length) :
    directReadTo p io ds sort ext dst =
      (ok (count.prod * ds.dsize), selected A start count ++ dst.drop (count.prod * ds.dsize)) := by
  obtain ⟨items, h1, -, h3, h4, h5⟩ := setup_core h hg
  rw [(directReadTo_iff h.addr (fun l => (hsort l).1) h3 h.opened h1 hd).2 h4, h5, blit_zero,
    selected_length h]

/-- C01 for `Direct::read_to_par`: every possible result is the right one (and there is one),
restricted like `C01_cache_partial`. -/
theorem C01_par_partial {p : Profile} {io : Io} {file : List Byte} {ds : Dataset}
    {A : List Nat → List Byte} {ext : Extents} {start count : List Nat}
    {sort : List GItem → List GItem} {dst : List Byte} (h : Setup p io file ds A ext start count)
    (hg : Good p ds start count) (hsort : ∀ l, SortedByAddr l (sort l))
    (hd : count.prod * ds.dsize ≤ dst.length) (res : Outcome Nat × List Byte) :
    DirectReadToPar p io ds sort ext dst res ↔ res =
      (ok (count.prod * ds.dsize), selected A start count ++ dst.drop (count.prod * ds.dsize)) := by
  obtain ⟨items, h1, -, h3, h4, h5⟩ := setup_core h hg
  have key : ∀ res, DirectReadToPar p io ds sort ext dst res → res =
      (ok (count.prod * ds.dsize), selected A start count ++ dst.drop (count.prod * ds.dsize)) := by
    intro res hres
    rcases directPar_cases h.addr (fun l => (hsort l).1) h3 h.opened (safe_rawD _ _ _ _ _) h1 hd hres
      with ⟨-, h6⟩ | ⟨h6, -⟩
    · rw [h6, h5, blit_zero, selected_length h]
    · exact absurd h4 h6
  refine ⟨key res, ?_⟩
  rintro rfl
  obtain ⟨res, hres⟩ := par_exists p io ds sort ext dst
  rw [← key res hres]; exact hres

/-- `Good` holds whenever the last dimension of the selection is not exactly one (edge-cut) chunk:
in particular for rank 1 unless one whole chunk is read (which is good as well). -/
theorem good_last_dim {p : Profile} {ds : Dataset} {is ns cs ss : List Nat} {i n c s : Nat}
    (hwf : WF p ds) (hb : InBounds (is ++ [i]) (ns ++ [n]) ds.shape)
    (hc : ds.chunkShape = cs ++ [c]) (hs : ds.shape = ss ++ [s])
    (hnot : ¬ (i % c = 0 ∧ n = min c (s - i))) : Good p ds (is ++ [i]) (ns ++ [n]) := by
  have h1 := hb.1
  have h2 := hb.2.1
  have h3 := hwf.rank
  rw [hs] at h1 h2 h3
  rw [hc] at h3
  simp only [List.length_append, List.length_cons, List.length_nil, Nat.zero_add,
    Nat.add_right_cancel_iff] at h1 h2 h3
  unfold Good
  rw [hc, hs, dimsOf_append is ns cs ss i n c s h1 h2 h3.symm]
  have hd : DimOk ⟨i, n, c, s⟩ := (sel_of hwf hb).1.dims _ (by
    rw [hc, hs, dimsOf_append is ns cs ss i n c s h1 h2 h3.symm]; simp)
  have hf : ¬ Dim.full ⟨i, n, c, s⟩ = true := by
    simp only [Dim.full, Bool.and_eq_true, beq_iff_eq]; exact hnot
  exact good_cons hd (fun hu => hf (exact_full hd (unit_exact hu))) fun h => absurd h hf

/-- The hypotheses are met by `Demo`: 2×3 elements of two bytes out of four shuffled, compressed
chunks; the untouched tail of the destination is kept. -/
example (p : Profile) : directReadTo p Demo.io Demo.ds sortByAddr Demo.ext (List.replicate 13 7) =
    (ok 12, [5, 101, 6, 101, 7, 101, 9, 102, 10, 102, 11, 102, 7]) :=
  C01_direct_partial (Demo.setup p) Demo.good sortByAddr_ok (by decide)

example (p : Profile) (rd : CacheReader) (h : CacheReader.withDataset p Demo.ds = ok rd) :
    ((afterReads p Demo.io Demo.file Demo.ds rd [(.all, [])]).readTo p Demo.io Demo.file Demo.ds
      Demo.ext (List.replicate 12 7)).2.1 = [5, 101, 6, 101, 7, 101, 9, 102, 10, 102, 11, 102] :=
  (C01_cache_partial (Demo.setup p) Demo.good h _ (by decide)).2

example (p : Profile) : DirectReadToPar p Demo.io Demo.ds sortByAddr Demo.ext (List.replicate 12 7)
    (ok 12, [5, 101, 6, 101, 7, 101, 9, 102, 10, 102, 11, 102]) :=
  (C01_par_partial (Demo.setup p) Demo.good sortByAddr_ok (by decide) _).2 rfl

/-- A file for `contig242`: the element at `(a, b, c)` is the byte `8a + 2b + c`. -/
def file242 : List Byte := (List.range 16).map UInt8.ofNat
def io242 : Io := ⟨some file242, fun _ => none⟩
def A242 : List Nat → List Byte
  | [a, b, c] => [UInt8.ofNat (8 * a + 2 * b + c)]
  | _ => [0]

theorem setup242 (p : Profile) : Setup p io242 file242 contig242 A242
    (.extent [.slice 0, .index 0, .slice 0]) [0, 0, 0] [2, 1, 2] where
  wf := contig242_wf p
  addr := by unfold AddrDet; decide
  opened := rfl
  sizes := ⟨by decide, by decide, by decide, by decide⟩
  sel := by unfold Selects; exact ⟨rfl, rfl, rfl⟩
  inb := by unfold InBounds; decide
  stores :=
    { elem := fun x => by unfold A242; split <;> rfl
      chunk := by
        intro c hc
        simp only [contig242, List.mem_cons, List.not_mem_nil, or_false] at hc
        subst hc
        refine ⟨by decide, file242, rfl, rfl, ?_⟩
        intro x hx _ k hk
        match x, hx with
        | [a, b, c], hx =>
          simp only [contig242, InBox, Nat.zero_le, Nat.zero_add, true_and, and_true] at hx
          obtain ⟨h1, h2, h3⟩ := hx
          subst hk
          obtain rfl | rfl : a = 0 ∨ a = 1 := by omega
          all_goals
            obtain rfl | rfl | rfl | rfl : b = 0 ∨ b = 1 ∨ b = 2 ∨ b = 3 := by omega
            all_goals
              obtain rfl | rfl : c = 0 ∨ c = 1 := by omega
              all_goals decide
        | [], hx => simp [contig242, InBox] at hx
        | [_], hx => simp [contig242, InBox] at hx
        | [_, _], hx => simp [contig242, InBox] at hx
        | _ :: _ :: _ :: _ :: _, hx => simp [contig242, InBox] at hx }

/-- C01 is false of the code, in debug and release builds: reading `[.., 0, ..]` of a contiguous
2×4×2 dataset returns Ok with the elements 0, 1, 2, 3 instead of 0, 1, 8, 9. -/
theorem not_C01 (p : Profile) :
    (directReadTo p io242 contig242 sortByAddr (.extent [.slice 0, .index 0, .slice 0])
      (List.replicate 4 0) = (ok 4, [0, 1, 2, 3])) ∧
    selected A242 [0, 0, 0] [2, 1, 2] = [0, 1, 8, 9] ∧
    ¬ ∀ (io : Io) (file : List Byte) (ds : Dataset) (A : List Nat → List Byte) (ext : Extents)
      (start count : List Nat) (dst : List Byte), Setup p io file ds A ext start count →
      count.prod * ds.dsize ≤ dst.length →
      directReadTo p io ds sortByAddr ext dst =
        (ok (count.prod * ds.dsize), selected A start count ++ dst.drop (count.prod * ds.dsize)) := by
  have h1 : directReadTo p io242 contig242 sortByAddr (.extent [.slice 0, .index 0, .slice 0])
      (List.replicate 4 0) = (ok 4, [0, 1, 2, 3]) := by cases p <;> decide +kernel
  have h2 : selected A242 [0, 0, 0] [2, 1, 2] = [0, 1, 8, 9] := by decide
  refine ⟨h1, h2, fun h => ?_⟩
  have := h io242 file242 contig242 A242 _ _ _ (List.replicate 4 0) (setup242 p) (by decide)
  rw [h1, h2] at this
  exact absurd (congrArg Prod.snd this) (by decide)

/-! ## C09 -/

/-- C09, `CacheReader`: destination shorter than the selection. Nothing is read: the result does not
depend on the file, and the reader is unchanged. -/
theorem C09_cache {p : Profile} {io : Io} {file : List Byte} {ds : Dataset} {ext : Extents}
    {rd : CacheReader} {dst : List Byte} {n : Nat} (hr : reqBytes p ds ext = ok n)
    (hd : dst.length < n) : rd.readTo p io file ds ext dst = (err .capacity, dst, rd) := by
  unfold CacheReader.readTo
  simp [hr, ensure, Nat.not_le.2 hd]

/-- C09, `Direct::read_to` (`chunkBytes` is computed when the reader is constructed). -/
theorem C09_direct {p : Profile} {io : Io} {ds : Dataset} {ext : Extents} {csz : Nat}
    {sort : List GItem → List GItem} {dst : List Byte} {n : Nat} (hc : chunkBytes p ds = ok csz)
    (hr : reqBytes p ds ext = ok n) (hd : dst.length < n) :
    directReadTo p io ds sort ext dst = (err .capacity, dst) := by
  unfold directReadTo
  simp [hc, hr, ensure, Nat.not_le.2 hd]

/-- C09, `Direct::read_to_par`: the only possible result. -/
theorem C09_par {p : Profile} {io : Io} {ds : Dataset} {ext : Extents} {csz : Nat}
    {sort : List GItem → List GItem} {dst : List Byte} {n : Nat} (hc : chunkBytes p ds = ok csz)
    (hr : reqBytes p ds ext = ok n) (hd : dst.length < n) (res : Outcome Nat × List Byte) :
    DirectReadToPar p io ds sort ext dst res ↔ res = (err .capacity, dst) := by
  have hp : parPrelude p ds sort ext dst.length = err .capacity := by
    unfold parPrelude; simp [hc, hr, ensure, Nat.not_le.2 hd]
  constructor
  · intro hres
    cases hres with
    | early e he hne => rw [hp] at he; rw [← he]; rfl
    | ran csz vsz groups r dst' h hrun => rw [hp] at h; simp at h
  · rintro rfl
    exact .early (err .capacity) (by rw [hp]; rfl) (by simp)

/-- C09, S3: no request is sent, whatever the server. -/
theorem C09_s3 {p : Profile} {inflate : List Byte → Option (List Byte)} {ds : Dataset}
    {ext : Extents} {csz : Nat} {sort : List GItem → List GItem} {server : Server}
    {complete : List Request → List Request} {dst : List Byte} {n : Nat}
    (hc : chunkBytes p ds = ok csz) (hr : reqBytes p ds ext = ok n) (hd : dst.length < n) :
    s3ReadTo p inflate ds sort server complete ext dst = (err .capacity, dst) := by
  unfold s3ReadTo s3Prelude
  simp [hc, hr, ensure, Nat.not_le.2 hd]

/-- The size that is needed is the number of selected elements times the element size. -/
theorem C09_size {p : Profile} {ds : Dataset} {ext : Extents} {start count : List Nat}
    (hwf : WF p ds) (hsel : Selects ext ds.shape start count) (hb : InBounds start count ds.shape)
    (hW : count.prod * ds.dsize < W) : reqBytes p ds ext = ok (count.prod * ds.dsize) :=
  reqBytes_ok hwf hsel hb hW

example (p : Profile) : directReadTo p Demo.io Demo.ds sortByAddr Demo.ext (List.replicate 11 7) =
    (err .capacity, List.replicate 11 7) :=
  C09_direct (csz := 8) (n := 12) (by cases p <;> rfl) (by cases p <;> rfl) (by decide)

/-! ## C10, C11 -/

/-- C10: result and destination of a read do not depend on the reads made before, whatever their
outcomes were. -/
theorem C10 {p : Profile} {io : Io} {file : List Byte} {ds : Dataset} {rd : CacheReader}
    (hdet : AddrDet ds) (hrd : CacheReader.withDataset p ds = ok rd)
    (hist hist' : List (Extents × List Byte)) (ext : Extents) (dst : List Byte) :
    let r := (afterReads p io file ds rd hist).readTo p io file ds ext dst
    let r' := (afterReads p io file ds rd hist').readTo p io file ds ext dst
    r.1 = r'.1 ∧ r.2.1 = r'.2.1 := by
  obtain ⟨h1, h2⟩ := cache_read (io := io) (file := file) hdet hrd hist ext dst
  obtain ⟨h3, h4⟩ := cache_read (io := io) (file := file) hdet hrd hist' ext dst
  exact ⟨h1.trans h3.symm, h2.trans h4.symm⟩

example (p : Profile) (rd : CacheReader) (h : CacheReader.withDataset p Demo.ds = ok rd) :
    ((afterReads p Demo.io Demo.file Demo.ds rd [(.all, List.replicate 24 0)]).readTo p Demo.io
      Demo.file Demo.ds Demo.ext (List.replicate 12 7)).1 =
    (rd.readTo p Demo.io Demo.file Demo.ds Demo.ext (List.replicate 12 7)).1 :=
  (C10 Demo.addr h [(.all, List.replicate 24 0)] [] Demo.ext (List.replicate 12 7)).1

/-- C11: after any history the cache holds at most `max(1, 32 MiB / chunk size)` chunks, at pairwise
different addresses, each the decoded chunk at its address. -/
theorem C11 {p : Profile} {io : Io} {file : List Byte} {ds : Dataset} {rd : CacheReader}
    (hdet : AddrDet ds) (hrd : CacheReader.withDataset p ds = ok rd)
    (hist : List (Extents × List Byte)) :
    let c := (afterReads p io file ds rd hist).cache
    c.entries.length ≤ max 1 (32 * 1024 * 1024 / rd.chunkSz) ∧
    (c.entries.map Prod.fst).Nodup ∧
    (∀ e ∈ c.entries, ∃ ch ∈ ds.chunks, ch.addr = e.1 ∧
      readChunk p io file ch.addr ch.size rd.chunkSz ds.dsize ds.gzip.isSome ds.shuffle = ok e.2) ∧
    chunkBytes p ds = ok rd.chunkSz := by
  obtain ⟨-, hc, -, -, hinv⟩ := withDataset_inv (io := io) (file := file) hrd
  obtain ⟨h1, h2⟩ := afterReads_inv hdet hist rd hinv
  refine ⟨?_, h2.distinct, h2.entry, hc⟩
  have := h2.bounded
  rw [Nat.max_comm]
  exact this

example (p : Profile) (rd : CacheReader) (h : CacheReader.withDataset p Demo.ds = ok rd) :
    (afterReads p Demo.io Demo.file Demo.ds rd [(.all, List.replicate 24 0)]).cache.entries.length ≤
      4194304 := by
  have h1 := (C11 (io := Demo.io) (file := Demo.file) Demo.addr h [(.all, List.replicate 24 0)])
  have h2 : rd.chunkSz = 8 := by
    have := h1.2.2.2
    have h3 : chunkBytes p Demo.ds = ok 8 := by cases p <;> rfl
    rw [h3] at this
    exact (Outcome.ok.inj this).symm
  have := h1.1
  rw [h2] at this
  exact this

/-! ## C07 -/

/-- C07 for in-bounds selections of checked reads (`Spec.Checked`: debug builds, whatever the dataset;
release builds for good selections): whenever the read succeeds with `n`, the
first `n` bytes of the destination are pieces of decoded chunks of the dataset, the same whatever was
in the destination before, and the rest is kept. -/
theorem C07_cache_partial {p : Profile} {io : Io} {file : List Byte} {ds : Dataset} {ext : Extents}
    {start count : List Nat} {rd : CacheReader} (hk : Checked p ds ext)
    (hdet : AddrDet ds)
    (hrd : CacheReader.withDataset p ds = ok rd) (hist : List (Extents × List Byte))
    (hsel : Selects ext ds.shape start count) (hb : InBounds start count ds.shape) :
    ∃ bytes, FromChunks (fun c => readChunk p io file c.addr c.size rd.chunkSz ds.dsize
        ds.gzip.isSome ds.shuffle) ds bytes ∧
      ∀ dst n, ((afterReads p io file ds rd hist).readTo p io file ds ext dst).1 = ok n →
        bytes.length = n ∧ n = count.prod * ds.dsize ∧ n ≤ dst.length ∧
        ((afterReads p io file ds rd hist).readTo p io file ds ext dst).2.1 =
          bytes ++ dst.drop n := by
  obtain ⟨-, hc, -⟩ := withDataset_inv (io := io) (file := file) hrd
  by_cases hs : ∃ items vsz, ds.chunkSlices p ext = ok ⟨items, ok ()⟩ ∧
      reqBytes p ds ext = ok vsz ∧
      ∀ it ∈ items, Ready (rawD p io file ds rd.chunkSz) ds.dsize it.chunk it.stop
  · obtain ⟨items, vsz, h1, h2, h3⟩ := hs
    have hS := checked_sliced hk hc h2 h1
    obtain ⟨ht, hv⟩ := checked_total hk hsel hb h2 h1
    have hl := flatMap_bytesOf_length (fun it hit => Nat.le_of_lt (hS.le it hit)) h3
    refine ⟨items.flatMap (bytesOf (rawD p io file ds rd.chunkSz) ds.dsize),
      fromChunks_items hS.mem (fun it hit => Nat.le_of_lt (hS.le it hit)) h3, fun dst n hok => ?_⟩
    obtain ⟨e1, e2⟩ := cache_read (io := io) (file := file) hdet hrd hist ext dst
    rw [e1] at hok
    rw [e2]
    have hn : vsz ≤ dst.length := nocacheReadTo_fits h2 hok
    obtain ⟨rfl, -⟩ := (nocacheReadTo_iff hS hn n).1 hok
    rw [nocacheReadTo_dst hS hn h3, blit_zero, hl, ht, hv]
    exact ⟨rfl, rfl, by omega, rfl⟩
  · refine ⟨[], .nil, fun dst n hok => absurd ?_ hs⟩
    obtain ⟨e1, e2⟩ := cache_read (io := io) (file := file) hdet hrd hist ext dst
    rw [e1] at hok
    obtain ⟨vsz, h2, items, h1⟩ := nocacheReadTo_inv hok
    have hS := checked_sliced hk hc h2 h1
    exact ⟨items, vsz, h1, h2, ((nocacheReadTo_iff hS (nocacheReadTo_fits h2 hok) n).1 hok).2⟩

/-- C07 for `Direct`. -/
theorem C07_direct_partial {p : Profile} {io : Io} {file : List Byte} {ds : Dataset} {ext : Extents}
    {start count : List Nat} {csz : Nat} {sort : List GItem → List GItem} (hk : Checked p ds ext)
    (hdet : AddrDet ds)
    (hf : io.file = some file) (hc : chunkBytes p ds = ok csz)
    (hsort : ∀ l, SortedByAddr l (sort l))
    (hsel : Selects ext ds.shape start count) (hb : InBounds start count ds.shape) :
    ∃ bytes, FromChunks (fun c => readChunk p io file c.addr c.size csz ds.dsize
        ds.gzip.isSome ds.shuffle) ds bytes ∧
      ∀ dst n, ((directReadTo p io ds sort ext dst).1 = ok n →
        bytes.length = n ∧ n = count.prod * ds.dsize ∧ n ≤ dst.length ∧
        (directReadTo p io ds sort ext dst).2 = bytes ++ dst.drop n) ∧
      ∀ res, DirectReadToPar p io ds sort ext dst res → res.1 = ok n →
        bytes.length = n ∧ n = count.prod * ds.dsize ∧ n ≤ dst.length ∧
        res.2 = bytes ++ dst.drop n := by
  have hperm := fun l => (hsort l).1
  by_cases hs : ∃ items vsz, ds.chunkSlices p ext = ok ⟨items, ok ()⟩ ∧
      reqBytes p ds ext = ok vsz ∧
      ∀ it ∈ items, Ready (rawD p io file ds csz) ds.dsize it.chunk it.stop
  · obtain ⟨items, vsz, h1, h2, h3⟩ := hs
    have hS := checked_sliced hk hc h2 h1
    obtain ⟨ht, hv⟩ := checked_total hk hsel hb h2 h1
    have hl := flatMap_bytesOf_length (fun it hit => Nat.le_of_lt (hS.le it hit)) h3
    refine ⟨items.flatMap (bytesOf (rawD p io file ds csz) ds.dsize),
      fromChunks_items hS.mem (fun it hit => Nat.le_of_lt (hS.le it hit)) h3,
      fun dst n => ⟨fun hok => ?_, fun res hres hok => ?_⟩⟩
    · have hn : vsz ≤ dst.length := directReadTo_fits h2 hok
      obtain ⟨d1, d2⟩ := directReadTo_iff hdet hperm hc hf hS hn
      obtain ⟨rfl, -⟩ := (d1 n).1 hok
      rw [d2 h3, blit_zero, hl, ht, hv]
      exact ⟨rfl, rfl, by omega, rfl⟩
    · have hn : vsz ≤ dst.length := par_fits h2 hres hok
      rcases directPar_cases hdet hperm hc hf (safe_rawD _ _ _ _ _) hS hn hres with
        ⟨-, h6⟩ | ⟨h6, -⟩
      · subst h6
        obtain rfl := Outcome.ok.inj hok
        rw [blit_zero, hl, ht, hv]
        exact ⟨rfl, rfl, by omega, rfl⟩
      · exact absurd h3 h6
  · refine ⟨[], .nil, fun dst n => ⟨fun hok => absurd ?_ hs, fun res hres hok => absurd ?_ hs⟩⟩
    · obtain ⟨vsz, h2, items, h1⟩ := directReadTo_inv hok
      have hS := checked_sliced hk hc h2 h1
      exact ⟨items, vsz, h1, h2,
        (((directReadTo_iff hdet hperm hc hf hS (directReadTo_fits h2 hok)).1 n).1 hok).2⟩
    · obtain ⟨vsz, h2, items, h1⟩ := par_inv hres hok
      have hS := checked_sliced hk hc h2 h1
      refine ⟨items, vsz, h1, h2, ?_⟩
      rcases directPar_cases hdet hperm hc hf (safe_rawD _ _ _ _ _) hS (par_fits h2 hres hok) hres with
        ⟨h6, -⟩ | ⟨-, h6, -⟩
      · exact h6
      · exact absurd hok (h6 n)

theorem Demo_checked (p : Profile) : Checked p Demo.ds Demo.ext :=
  .inr ⟨[1, 1], [2, 3], (Demo.setup p).sel, .inl ⟨Demo.wf p, (Demo.setup p).inb, Demo.good,
    by decide, by decide⟩⟩

example (p : Profile) : ∃ bytes : List Byte, bytes.length = 12 ∧
    (directReadTo p Demo.io Demo.ds sortByAddr Demo.ext (List.replicate 12 7)).2 = bytes := by
  obtain ⟨bytes, -, h⟩ := C07_direct_partial (io := Demo.io) (csz := 8) (Demo_checked p) Demo.addr rfl
    (by cases p <;> rfl) sortByAddr_ok (Demo.setup p).sel (Demo.setup p).inb
  have h1 := (h (List.replicate 12 7) 12).1
    (by rw [C01_direct_partial (Demo.setup p) Demo.good sortByAddr_ok (by decide)]; rfl)
  exact ⟨bytes, h1.1, by simpa using h1.2.2.2⟩

/-- C07 is false of the code for out-of-bounds selections: reading rows 0..4 of column 0 of a
dataset with 3 rows reports 8 bytes and writes none. -/
theorem not_C07 (p : Profile) (dst : List Byte) (h : dst.length = 8) :
    directReadTo p Demo.io Demo.ds sortByAddr (.extent [.sliceEnd 0 4, .index 0]) dst =
      (ok 8, dst) := by
  unfold directReadTo
  have h1 : chunkBytes p Demo.ds = ok 8 := by cases p <;> rfl
  have h2 : reqBytes p Demo.ds (.extent [.sliceEnd 0 4, .index 0]) = ok 8 := by cases p <;> rfl
  have h3 : Demo.ds.groupChunkSlices p (.extent [.sliceEnd 0 4, .index 0]) sortByAddr = ok [] := by
    cases p <;> decide +kernel
  simp [h1, h2, h3, h, Demo.io, loop]

/-! ## C08 -/

/-- C08 for `CacheReader`: whatever the outcome of the call (and of the earlier ones), bytes from the
size of the selection on are unchanged. For checked reads (`Spec.Checked`); missing: release builds
and selections that are not good, where it is false (`not_C08`). -/
theorem C08_cache_partial {p : Profile} {io : Io} {file : List Byte} {ds : Dataset} {ext : Extents}
    {rd : CacheReader} {n : Nat} (hk : Checked p ds ext) (hdet : AddrDet ds)
    (hrd : CacheReader.withDataset p ds = ok rd) (hist : List (Extents × List Byte))
    (dst : List Byte) (hn : reqBytes p ds ext = ok n) :
    SameFrom n ((afterReads p io file ds rd hist).readTo p io file ds ext dst).2.1 dst := by
  obtain ⟨-, hc, -⟩ := withDataset_inv (io := io) (file := file) hrd
  rw [(cache_read hdet hrd hist ext dst).2]
  exact nocache_frame_checked hk hc hn

/-- C08 for `Direct::read_to`. -/
theorem C08_direct_partial {p : Profile} {io : Io} {ds : Dataset} {ext : Extents} {n : Nat}
    {sort : List GItem → List GItem} (hk : Checked p ds ext) (hdet : AddrDet ds)
    (hsort : ∀ l, SortedByAddr l (sort l)) (dst : List Byte) (hn : reqBytes p ds ext = ok n) :
    SameFrom n (directReadTo p io ds sort ext dst).2 dst :=
  direct_frame_checked hk hdet (fun l => (hsort l).1) hn

/-- C08 for `Direct::read_to_par`, every schedule. -/
theorem C08_par_partial {p : Profile} {io : Io} {ds : Dataset} {ext : Extents} {n : Nat}
    {sort : List GItem → List GItem} (hk : Checked p ds ext)
    (hsort : ∀ l, SortedByAddr l (sort l)) (dst : List Byte) (hn : reqBytes p ds ext = ok n)
    (res : Outcome Nat × List Byte) (hres : DirectReadToPar p io ds sort ext dst res) :
    SameFrom n res.2 dst :=
  (par_safe_checked hk (fun l => (hsort l).1) hres).2 n hn

example (p : Profile) (io : Io) : (directReadTo p io Demo.ds sortByAddr Demo.ext
    (List.replicate 14 7)).2[13]? = some 7 :=
  (C08_direct_partial (n := 12) (Demo_checked p) Demo.addr sortByAddr_ok (List.replicate 14 7)
    (by cases p <;> rfl)).2 13 (by decide)

/-- A file for `cut2015`. -/
def io2015 : Io := ⟨some (List.replicate 400 1), fun _ => none⟩

/-- The selection rows 0..15, columns 10..15 of `cut2015`: 75 elements of one byte. -/
def ext2015 : Extents := .extent [.sliceEnd 0 15, .sliceEnd 10 15]

/-- C08 is false in release builds: the slices of a 75-byte selection cover 95 bytes, so 20 bytes past
the requested ones are overwritten. A debug build panics. -/
theorem not_C08 :
    reqBytes .release cut2015 ext2015 = ok 75 ∧
    (∀ rd, CacheReader.withDataset .release cut2015 = ok rd →
      (rd.readTo .release io2015 (List.replicate 400 1) cut2015 ext2015
        (List.replicate 100 0)).1 = ok 75 ∧
      (rd.readTo .release io2015 (List.replicate 400 1) cut2015 ext2015
        (List.replicate 100 0)).2.1 = List.replicate 95 1 ++ List.replicate 5 0) ∧
    (directReadTo .debug io2015 cut2015 sortByAddr ext2015 (List.replicate 100 0)).1 =
      .panic .debugAssert := by
  refine ⟨by decide +kernel, ?_, by decide +kernel⟩
  intro rd h
  have : CacheReader.withDataset .release cut2015 = ok ⟨100, ⟨335544, []⟩⟩ := by decide +kernel
  rw [this] at h
  obtain rfl := Outcome.ok.inj h
  constructor <;> decide +kernel

/-! ## C13, C14 -/

/-- C13: every result of `read_to_par` (every schedule, every order in which the writes happen) agrees
with the sequential read: both succeed, with the same number and the same destination, or both fail.
For checked reads; missing: release builds and selections that are not good (`not_C14`). -/
theorem C13_partial {p : Profile} {io : Io} {file : List Byte} {ds : Dataset} {ext : Extents}
    {sort sort' : List GItem → List GItem} (hk : Checked p ds ext) (hdet : AddrDet ds)
    (hf : io.file = some file) (hsort : ∀ l, SortedByAddr l (sort l))
    (hsort' : ∀ l, SortedByAddr l (sort' l)) (dst : List Byte)
    (res : Outcome Nat × List Byte) (hres : DirectReadToPar p io ds sort ext dst res) :
    (∀ n, res.1 = ok n ↔ (directReadTo p io ds sort' ext dst).1 = ok n) ∧
    (∀ n, res.1 = ok n → res.2 = (directReadTo p io ds sort' ext dst).2) := by
  have hp := fun l => (hsort l).1
  have hp' := fun l => (hsort' l).1
  by_cases hs : ∃ csz vsz items, chunkBytes p ds = ok csz ∧ reqBytes p ds ext = ok vsz ∧
      ds.chunkSlices p ext = ok ⟨items, ok ()⟩ ∧ vsz ≤ dst.length
  · obtain ⟨csz, vsz, items, h1, h2, h3, h4⟩ := hs
    have hS := checked_sliced hk h1 h2 h3
    obtain ⟨d1, d2⟩ := directReadTo_iff hdet hp' h1 hf hS h4
    rcases directPar_cases hdet hp h1 hf (safe_rawD _ _ _ _ _) hS h4 hres with
      ⟨h5, h6⟩ | ⟨h5, h6, -⟩
    · rw [h6, d2 h5]
      exact ⟨fun _ => Iff.rfl, fun _ _ => rfl⟩
    · refine ⟨fun n => ⟨fun h => absurd h (h6 n), fun h => absurd ((d1 n).1 h).2 h5⟩,
        fun n h => absurd h (h6 n)⟩
  · have key : ∀ n, ¬ res.1 = ok n := by
      intro n hok
      cases hres with
      | early e he hne => exact hne n hok
      | ran csz vsz groups r dst' hpre hrun =>
        obtain ⟨h1, h2, h3, l, h4, -⟩ := parPrelude_inv hpre
        obtain ⟨items, h5, -⟩ := groupUnsorted_inv h4
        exact hs ⟨csz, vsz, items, h1, h2, h5, h3⟩
    have key' : ∀ n, ¬ (directReadTo p io ds sort' ext dst).1 = ok n := by
      intro n hok
      obtain ⟨vsz, h2, items, h3⟩ := directReadTo_inv hok
      have h4 := directReadTo_fits h2 hok
      cases hc : chunkBytes p ds with
      | ok csz => exact hs ⟨csz, vsz, items, hc, h2, h3, h4⟩
      | _ => simp [directReadTo, hc] at hok
    exact ⟨fun n => ⟨fun h => absurd h (key n), fun h => absurd h (key' n)⟩,
      fun n h => absurd h (key n)⟩

/-- C14: no result of `read_to_par` is undefined behaviour, that is no unchecked copy leaves the
destination and no two worker threads write to a common byte. For checked reads. -/
theorem C14_partial {p : Profile} {io : Io} {ds : Dataset} {ext : Extents}
    {sort : List GItem → List GItem} (hk : Checked p ds ext)
    (hsort : ∀ l, SortedByAddr l (sort l)) (dst : List Byte)
    (res : Outcome Nat × List Byte) (hres : DirectReadToPar p io ds sort ext dst res) : res.1 ≠ ub :=
  (par_safe_checked hk (fun l => (hsort l).1) hres).1

/-- C14 in terms of the ranges: the copies of all worker threads target ranges inside the first `n`
bytes (the size of the selection), disjoint between threads. -/
theorem C14_ranges_partial {p : Profile} {io : Io} {ds : Dataset} {ext : Extents} {csz n len : Nat}
    {sort : List GItem → List GItem} {groups : List (List GItem)} (hk : Checked p ds ext)
    (hsort : ∀ l, SortedByAddr l (sort l))
    (h : parPrelude p ds sort ext len = ok (csz, n, groups)) :
    n ≤ len ∧
    (∀ g ∈ groups, ∀ w ∈ (parGroup p io ds csz len g).2, w.off + w.bytes.length ≤ n) ∧
    ∀ i j : Nat, i ≠ j → ∀ gi gj, groups[i]? = some gi → groups[j]? = some gj →
      ∀ a ∈ (parGroup p io ds csz len gi).2, ∀ b ∈ (parGroup p io ds csz len gj).2,
        ¬ a.overlaps b := by
  obtain ⟨h1, h2, h3, l, h4, rfl⟩ := parPrelude_inv h
  obtain ⟨items, h5, -⟩ := groupUnsorted_inv h4
  have hS := checked_sliced hk h1 h2 h5
  rw [hS.grouped] at h4
  obtain rfl := Outcome.ok.inj h4
  obtain ⟨w1, w2⟩ := par_writes (io := io) (csz := csz) (fun l => (hsort l).1) hS h3
  refine ⟨h3, fun g hg => (w1 _ (List.mem_map.2 ⟨g, hg, rfl⟩)).2, ?_⟩
  intro i j hij gi gj hi hj
  exact w2 i j hij _ _ (by simp [hi]) (by simp [hj])

example (p : Profile) (io : Io) (res : Outcome Nat × List Byte)
    (h : DirectReadToPar p io Demo.ds sortByAddr Demo.ext (List.replicate 12 0) res) : res.1 ≠ ub :=
  C14_partial (Demo_checked p) sortByAddr_ok _ res h

example (p : Profile) (res : Outcome Nat × List Byte)
    (h : DirectReadToPar p Demo.io Demo.ds sortByAddr Demo.ext (List.replicate 12 0) res) :
    res.1 = ok 12 := by
  rw [(C13_partial (file := Demo.file) (Demo_checked p) Demo.addr rfl sortByAddr_ok sortByAddr_ok _
    res h).1, C01_direct_partial (Demo.setup p) Demo.good sortByAddr_ok (by decide)]
  rfl

/-- C14 is false in release builds: `read_to_par` of the 75-byte selection `ext2015` into a buffer of
75 bytes writes past the end of the buffer. -/
theorem not_C14 : WF .release cut2015 ∧
    reqBytes .release cut2015 ext2015 = ok 75 ∧
    ∃ dst', DirectReadToPar .release io2015 cut2015 sortByAddr ext2015 (List.replicate 75 0)
      (ub, dst') := by
  have hg : parPrelude .release cut2015 sortByAddr ext2015 75 =
      ok (100, 75, [[⟨⟨100, 100, [0, 10]⟩, 0, 0, 95⟩]]) := by decide +kernel
  have hr : parGroup .release io2015 cut2015 100 75 [⟨⟨100, 100, [0, 10]⟩, 0, 0, 95⟩] = (ub, []) := by
    decide +kernel
  refine ⟨cut2015_wf _, by decide +kernel, List.replicate 75 0, ?_⟩
  refine .ran 100 75 [[⟨⟨100, 100, [0, 10]⟩, 0, 0, 95⟩]] ub (List.replicate 75 0) ?_ ?_
  · rw [List.length_replicate]; exact hg
  · rw [List.length_replicate, List.map_singleton, hr]
    exact .failed (ub, []) (by simp) (by simp) [] [] (by simp)

end Hidefix.Props
