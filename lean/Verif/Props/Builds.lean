import Verif.Props.Streaming
import Verif.Proofs.Profiles

/-!
# Properties C44, C45, C46: build profiles, filter pipeline
-/

set_option autoImplicit false

namespace Hidefix.Props
open Hidefix Hidefix.Spec Hidefix.Proofs Outcome

/-! ## C44 -/

/-- C44 for a `CacheReader` in any state: unless the debug build panics, the release build returns
the same, with the same destination and the same cache. For every dataset (also malformed), file
and selection. Missing: what a release build does when the debug build panics (`not_C44`). -/
theorem C44_cache_partial {io : Io} {file : List Byte} {ds : Dataset} {rd : CacheReader}
    {ext : Extents} {dst : List Byte} (h : ∀ f, (rd.readTo .debug io file ds ext dst).1 ≠ .panic f) :
    rd.readTo .release io file ds ext dst = rd.readTo .debug io file ds ext dst := by
  rcases le_readTo io file ds rd ext dst with ⟨f, hf⟩ | he
  · exact absurd hf (h f)
  · exact he.symm

/-- The same for the constructor. -/
theorem C44_open_partial {ds : Dataset} (h : ∀ f, CacheReader.withDataset .debug ds ≠ .panic f) :
    CacheReader.withDataset .release ds = CacheReader.withDataset .debug ds := by
  rcases le_withDataset ds with ⟨f, hf⟩ | he
  · exact absurd hf (h f)
  · exact he.symm

/-- The same for `Direct::read_to`. -/
theorem C44_direct_partial {io : Io} {ds : Dataset} {sort : List GItem → List GItem}
    {ext : Extents} {dst : List Byte}
    (h : ∀ f, (directReadTo .debug io ds sort ext dst).1 ≠ .panic f) :
    directReadTo .release io ds sort ext dst = directReadTo .debug io ds sort ext dst := by
  rcases le_directReadTo io ds sort ext dst with ⟨f, hf⟩ | he
  · exact absurd hf (h f)
  · exact he.symm

/-- The same for `Direct::read_to_par`: every result of the debug build that is not a panic is a
result the release build can have. -/
theorem C44_par_partial {io : Io} {ds : Dataset} {sort : List GItem → List GItem} {ext : Extents}
    {dst : List Byte} {res : Outcome Nat × List Byte}
    (h : DirectReadToPar .debug io ds sort ext dst res) (hn : ∀ f, res.1 ≠ .panic f) :
    DirectReadToPar .release io ds sort ext dst res := le_par h hn

/-- The same for `StreamReader::stream`. -/
theorem C44_stream_partial {rt : Rt} {io : Io} {ds : Dataset} {ext : Extents}
    (h : ∀ f, streamBytes .debug rt io ds ext ≠ .panic f)
    (hn : ∀ items f, streamBytes .debug rt io ds ext ≠ ok ⟨items, .panic f⟩) :
    streamBytes .release rt io ds ext = streamBytes .debug rt io ds ext := by
  rcases le_stream (rt := rt) (io := io) (ds := ds) (ext := ext) (ok 1) ok
    (fun p => streamBytes p rt io ds ext) (by funext p; unfold streamBytes; rfl) with ⟨f, hf⟩ | ⟨t, u, h1, h2, h3⟩ | he
  · exact absurd hf (h f)
  · rcases h3 with ⟨⟨f, hf⟩, -⟩ | rfl
    · exact absurd (show streamBytes .debug rt io ds ext = ok ⟨t.items, .panic f⟩ by
        rw [← hf]; exact h1) (hn _ _)
    · exact h2.trans h1.symm
  · exact he.symm

/-- The same for `StreamReader::stream_xdr`. -/
theorem C44_xdr_partial {rt : Rt} {hst : Host} {io : Io} {ds : Dataset} {ext : Extents}
    (h : ∀ f, streamXdr .debug rt hst io ds ext ≠ .panic f)
    (hn : ∀ items f, streamXdr .debug rt hst io ds ext ≠ ok ⟨items, .panic f⟩) :
    streamXdr .release rt hst io ds ext = streamXdr .debug rt hst io ds ext := by
  rcases le_stream (rt := rt) (io := io) (ds := ds) (ext := ext) (xdrFactor ds.dtype)
    (fun c => xdr hst c ds.dtype ds.order)
    (fun p => streamXdr p rt hst io ds ext) (by funext p; unfold streamXdr; rfl) with ⟨f, hf⟩ | ⟨t, u, h1, h2, h3⟩ | he
  · exact absurd hf (h f)
  · rcases h3 with ⟨⟨f, hf⟩, -⟩ | rfl
    · exact absurd (show streamXdr .debug rt hst io ds ext = ok ⟨t.items, .panic f⟩ by
        rw [← hf]; exact h1) (hn _ _)
    · exact h2.trans h1.symm
  · exact he.symm

/-- The same for typed values (`values`, through the direct reader). -/
theorem C44_values_partial {hst : Host} {t : Prim} {io : Io} {ds : Dataset}
    {sort : List GItem → List GItem} {ext : Extents}
    (h : ∀ f, values .debug hst t ds (directReadTo .debug io ds sort) ext ≠ .panic f) :
    values .release hst t ds (directReadTo .release io ds sort) ext =
      values .debug hst t ds (directReadTo .debug io ds sort) ext := by
  rcases le_values (h := hst) (t := t) (ds := ds) (ext := ext) (r := directReadTo .debug io ds sort)
    (q := directReadTo .release io ds sort) (fun dst => le_directReadTo io ds sort ext dst) with
    ⟨f, hf⟩ | he
  · exact absurd hf (h f)
  · exact he.symm

theorem setup_release {io : Io} {file : List Byte} {ds : Dataset} {A : List Nat → List Byte}
    {ext : Extents} {start count : List Nat} (h : Setup .debug io file ds A ext start count) :
    Setup .release io file ds A ext start count := { h with wf := wf_release h.wf }

/-- C44 for the selections of `Spec.Good` of a dataset that debug builds can represent: both builds
give the same result, for all readers. -/
theorem C44_good_partial {rt : Rt} {io : Io} {file : List Byte} {ds : Dataset}
    {A : List Nat → List Byte} {ext : Extents} {start count : List Nat}
    {sort : List GItem → List GItem} {dst : List Byte} {rd : CacheReader}
    (h : Setup .debug io file ds A ext start count) (hg : Good .debug ds start count)
    (hsort : ∀ l, SortedByAddr l (sort l)) (hd : count.prod * ds.dsize ≤ dst.length)
    (hrt : rt ≠ .currentThread) :
    directReadTo .release io ds sort ext dst = directReadTo .debug io ds sort ext dst ∧
    (∀ res, DirectReadToPar .release io ds sort ext dst res ↔
      DirectReadToPar .debug io ds sort ext dst res) ∧
    CacheReader.withDataset .release ds = CacheReader.withDataset .debug ds ∧
    (CacheReader.withDataset .debug ds = ok rd →
      rd.readTo .release io file ds ext dst = rd.readTo .debug io file ds ext dst) ∧
    streamBytes .release rt io ds ext = streamBytes .debug rt io ds ext := by
  have h' := setup_release h
  refine ⟨?_, fun res => ?_, ?_, fun hrd => ?_, ?_⟩
  · rw [C01_direct_partial h hg hsort hd, C01_direct_partial h' (good_of_debug hg) hsort hd]
  · rw [C01_par_partial h hg hsort hd, C01_par_partial h' (good_of_debug hg) hsort hd]
  · obtain ⟨rd', h1, -⟩ := withDataset_ok h.wf h.sizes
    exact C44_open_partial fun f => by rw [h1]; simp
  · have := (C01_cache_partial h hg hrd [] hd).1
    refine C44_cache_partial fun f => ?_
    simp only [afterReads] at this
    rw [this]; simp
  · obtain ⟨items, h1, -⟩ := C15_partial h hg hrt
    refine C44_stream_partial (fun f => by rw [h1]; simp) fun its f he => ?_
    rw [h1] at he
    simp at he

/-- C44 is false: on the well-formed dataset `cut2015`, all of whose sizes are tiny, streaming the
in-bounds selection `ext2015` panics in a debug build and succeeds, with too many bytes, in a
release build. -/
theorem not_C44 : WF .debug cut2015 ∧ WF .release cut2015 ∧
    (∃ f, streamBytes .debug .none io2015 cut2015 ext2015 = .panic f) ∧
    ∃ items, streamBytes .release .none io2015 cut2015 ext2015 = ok ⟨items, ok ()⟩ :=
  ⟨cut2015_wf _, cut2015_wf _, ⟨.debugAssert, by decide +kernel⟩,
    not_C12.2.1.imp fun _ h => h.1⟩

example (hd : (12 : Nat) ≤ (List.replicate 12 (0 : Byte)).length) :
    directReadTo .release Demo.io Demo.ds sortByAddr Demo.ext (List.replicate 12 0) =
      directReadTo .debug Demo.io Demo.ds sortByAddr Demo.ext (List.replicate 12 0) :=
  (C44_good_partial (rt := .none) (rd := ⟨0, ⟨0, []⟩⟩) (Demo.setup .debug) Demo.good sortByAddr_ok hd
    (by decide)).1

/-- A selection that is out of bounds fails to be read the same way in both builds. -/
example : directReadTo .release Demo.io Demo.ds sortByAddr (.extent [.sliceEnd 1 4, .slice 1]) [] =
    directReadTo .debug Demo.io Demo.ds sortByAddr (.extent [.sliceEnd 1 4, .slice 1]) [] :=
  C44_direct_partial (by
    have : (directReadTo .debug Demo.io Demo.ds sortByAddr (.extent [.sliceEnd 1 4, .slice 1]) []).1 =
      err .capacity := by decide +kernel
    rw [this]; simp)

/-! ## C45 -/

/-- C45: decoding what the filter pipeline wrote for a chunk gives back the chunk, in both builds,
whatever of the two filters is used. -/
theorem C45 {p : Profile} {inflate : List Byte → Option (List Byte)} {ds : Dataset}
    {block raw : List Byte} {n : Nat}
    (hd : ds.dsize = 1 ∨ ds.dsize = 2 ∨ ds.dsize = 4 ∨ ds.dsize = 8)
    (hb : block.length = n * ds.dsize) (hl : block.length < 2 ^ 63)
    (he : Encoded inflate ds block raw) :
    decodeChunk p inflate raw block.length ds.dsize ds.gzip.isSome ds.shuffle = ok block :=
  decode_encoded ⟨by omega, by omega, fun _ => hd⟩ hb hl he

/-- The specification of the shuffle filter used in `Encoded` is what the crate's own `shuffle`
computes. -/
theorem C45_shuffled {k : Nat} {b dest : List Byte} (hk : 0 < k) (hm : k ∣ b.length)
    (hd : dest.length = b.length) : shuffle k b dest = ok (shuffled k b) := shuffle_spec hk hm hd

/-- Elements of other sizes (up to 15 bytes) are decoded as well unless they are shuffled. -/
theorem C45_unshuffled {p : Profile} {inflate : List Byte → Option (List Byte)} {ds : Dataset}
    {block raw : List Byte} {n : Nat} (hd : 0 < ds.dsize ∧ ds.dsize < 16) (hs : ds.shuffle = false)
    (hb : block.length = n * ds.dsize) (hl : block.length < 2 ^ 63)
    (he : Encoded inflate ds block raw) :
    decodeChunk p inflate raw block.length ds.dsize ds.gzip.isSome ds.shuffle = ok block :=
  decode_encoded ⟨hd.1, hd.2, by simp [hs]⟩ hb hl he

example (p : Profile) : decodeChunk p Demo.inflate [0x78, 0, 1, 4, 5, 100, 100, 101, 101] 8 2 true true =
    ok [0, 100, 1, 100, 4, 101, 5, 101] :=
  C45 (ds := Demo.ds) (block := [0, 100, 1, 100, 4, 101, 5, 101]) (n := 4) (.inr (.inl rfl)) rfl
    (by decide) rfl

/-! ## C46 -/

/-- C46, the half that is true: a stored chunk that decompresses to more bytes than the chunk size,
or not at all, makes the chunk read fail. Missing: a chunk that decompresses to fewer bytes
(`not_C46`). -/
theorem C46_partial {p : Profile} {io : Io} {file : List Byte} {addr size chunkSz dsz : Nat}
    {sh : Bool}
    (h : ∀ d, io.inflate ((file.drop addr).take size) = some d → chunkSz < d.length)
    (hsz : 0 < size) (v : List Byte) :
    readChunk p io file addr size chunkSz dsz true sh ≠ ok v := by
  intro hv
  unfold readChunk at hv
  obtain ⟨_, -, hv⟩ := bind_eq_ok.1 hv
  obtain ⟨raw, hr, hv⟩ := bind_eq_ok.1 hv
  have hraw : raw = (file.drop addr).take size := by
    unfold readRaw at hr
    split at hr
    · simp at hr
    split at hr
    · exact (Outcome.ok.inj hr).symm
    split at hr
    · omega
    · simp at hr
  subst hraw
  unfold decodeChunk at hv
  obtain ⟨_, -, hv⟩ := bind_eq_ok.1 hv
  simp only [if_true] at hv
  obtain ⟨_, -, hv⟩ := bind_eq_ok.1 hv
  obtain ⟨_, hd, -⟩ := bind_eq_ok.1 hv
  unfold decompress at hd
  split at hd
  · simp at hd
  · rename_i d hi
    have := h d hi
    rw [List.length_replicate, if_neg (by omega)] at hd
    simp at hd

/-- A file whose first chunk of `Demo.ds` decompresses to 7 bytes instead of 8. -/
def shortFile : List Byte := (Demo.file.take 9 ++ [0x78, 0, 1, 4, 5, 100, 100, 101]) ++ Demo.file.drop 18

/-- C46 is false: a chunk that decompresses to too few bytes is read without error, its missing
bytes being zero. -/
theorem not_C46 (p : Profile) :
    Demo.inflate ((shortFile.drop 9).take 8) = some [0, 1, 4, 5, 100, 100, 101] ∧
    readChunk p ⟨some shortFile, Demo.inflate⟩ shortFile 9 8 8 2 true true =
      ok [0, 100, 1, 100, 4, 101, 5, 0] := by
  constructor
  · decide
  · cases p <;> decide +kernel

/-- An invalid stream. -/
example (p : Profile) (v : List Byte) :
    readChunk p Demo.io Demo.file 18 9 8 2 true true ≠ ok v :=
  C46_partial (by
    intro d hd
    have : Demo.io.inflate ((Demo.file.drop 18).take 9) = none := by decide
    rw [this] at hd
    simp at hd) (by decide) v

/-- A stream that is too long. -/
example (p : Profile) (v : List Byte) :
    readChunk p Demo.io Demo.file 0 10 8 2 true true ≠ ok v :=
  C46_partial (by
    intro d hd
    have : Demo.io.inflate ((Demo.file.drop 0).take 10) = some [2, 3, 6, 7, 100, 100, 101, 101, 0x78] := by
      decide
    rw [this] at hd
    obtain rfl := Option.some.inj hd
    decide) (by decide) v

end Hidefix.Props
