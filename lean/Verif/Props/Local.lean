import Verif.Proofs.Touched
import Verif.Props.Damage
import Verif.Props.Agreement

/-!
# Property C63: a read depends on the chunks it needs and on nothing else in the file

Whatever the selection and however the call ends, the bytes of the file outside the chunks that hold a
selected element have no influence: not on the outcome, not on the destination, not on the items of a
stream, not on the state of a caching reader afterwards.
-/

set_option autoImplicit false

namespace Hidefix.Props
open Hidefix Hidefix.Spec Hidefix.Proofs Outcome

/-- Two files hold the same bytes (or are cut at the same place) in every chunk of `ds` that the
selection `ext` needs. -/
def SameWhereNeeded (ds : Dataset) (ext : Extents) (file file' : List Byte) : Prop :=
  ∀ start count, Selects ext ds.shape start count → ∀ c, Needs ds start count c →
    (file.drop c.addr).take c.size = (file'.drop c.addr).take c.size

/-- The ends of the selection are numbers of 64 bits. -/
def EndsFit (ds : Dataset) (ext : Extents) : Prop :=
  ∀ start count, Selects ext ds.shape start count →
    ∀ t ∈ start.zip (count.zip ds.shape), t.1 + t.2.1 < W

/-- The same storage with another file. -/
def withFile (io : Io) (file : List Byte) : Io := { io with file := some file }

theorem selects_length {ext : Extents} {shape start count : List Nat}
    (h : Selects ext shape start count) :
    start.length = shape.length ∧ count.length = shape.length := by
  unfold Selects at h
  cases ext with
  | all => obtain ⟨rfl, rfl⟩ := h; simp
  | extent l =>
    obtain ⟨h0, rfl, rfl⟩ := h
    simp [h0]

/-- Every slice of every selection comes from a chunk that the selection needs. -/
theorem slices_need {p : Profile} {ds : Dataset} {ext : Extents} (hwf : WF p ds)
    (hfit : EndsFit ds ext) {t : Trace Item} (h : ds.chunkSlices p ext = ok t) :
    ∃ start count, Selects ext ds.shape start count ∧ ∀ it ∈ t.items, Needs ds start count it.chunk := by
  have h' := h
  unfold Dataset.chunkSlices at h'
  obtain ⟨s, hs, -⟩ := bind_eq_ok.1 h'
  obtain ⟨start, count, oob, h1, -, -⟩ := chunkSlicer_inv hs
  have hsel := (selects_iff ext ds.shape start count).1 h1
  refine ⟨start, count, hsel, ?_⟩
  by_cases hb : InBounds start count ds.shape
  · exact slices_touched hwf hsel hb h
  · have hl := selects_length hsel
    have : (∃ t ∈ start.zip (count.zip ds.shape), t.2.2 < t.1 + t.2.1) ∨ 0 ∈ count := by
      by_contra hcon
      rw [not_or] at hcon
      refine hb ⟨hl.1, hl.2, fun t ht => ⟨?_, ?_⟩⟩
      · rcases Nat.eq_zero_or_pos t.2.1 with h0 | h0
        · exact absurd (h0 ▸ (List.of_mem_zip (List.of_mem_zip ht).2).1) hcon.2
        · exact h0
      · exact Nat.le_of_not_lt fun hlt => hcon.1 ⟨t, ht, hlt⟩
    rw [chunkSlices_oob hsel (hfit _ _ hsel) this] at h
    obtain rfl := Outcome.ok.inj h
    simp

theorem readRaw_same {file file' : List Byte} {a n : Nat}
    (h : (file.drop a).take n = (file'.drop a).take n) : readRaw file a n = readRaw file' a n := by
  unfold readRaw
  by_cases h0 : n = 0
  · subst h0; simp
  have hl := congrArg List.length h
  simp only [List.length_take, List.length_drop] at hl
  split
  · rfl
  · by_cases h1 : a + n ≤ file.length
    · have h2 : a + n ≤ file'.length := by omega
      rw [if_pos h1, if_pos h2, h]
    · have h2 : ¬ a + n ≤ file'.length := by omega
      rw [if_neg h1, if_neg h2]

theorem groupScan_chunks {p : Profile} {items : List Item} {off : Nat} {l : List GItem}
    (h : groupScan p off items = ok l) : ∀ g ∈ l, ∃ it ∈ items, it.chunk = g.chunk := by
  induction items generalizing off l with
  | nil => obtain rfl := Outcome.ok.inj h; simp
  | cons it its ih =>
    simp only [groupScan] at h
    obtain ⟨_, -, h⟩ := bind_eq_ok.1 h
    obtain ⟨_, -, h⟩ := bind_eq_ok.1 h
    obtain ⟨r, h1, h⟩ := bind_eq_ok.1 h
    obtain rfl := Outcome.ok.inj h
    intro g hg
    rcases List.mem_cons.1 hg with rfl | hg
    · exact ⟨it, by simp, rfl⟩
    · obtain ⟨x, hx, e⟩ := ih h1 g hg; exact ⟨x, by simp [hx], e⟩

/-- The raw bytes of every chunk a read looks at are the same in both files. -/
theorem same_items {p : Profile} {ds : Dataset} {ext : Extents} {file file' : List Byte}
    (hwf : WF p ds) (hfit : EndsFit ds ext) (hsame : SameWhereNeeded ds ext file file')
    {t : Trace Item} (h : ds.chunkSlices p ext = ok t) : ∀ it ∈ t.items,
      readRaw file it.chunk.addr it.chunk.size = readRaw file' it.chunk.addr it.chunk.size := by
  obtain ⟨start, count, hsel, hn⟩ := slices_need hwf hfit h
  exact fun it hit => readRaw_same (hsame start count hsel _ (hn it hit))

theorem same_groups {p : Profile} {ds : Dataset} {ext : Extents} {file file' : List Byte}
    {sort : List GItem → List GItem}
    (hwf : WF p ds) (hfit : EndsFit ds ext) (hsame : SameWhereNeeded ds ext file file')
    (hsort : ∀ l : List GItem, l.Perm (sort l))
    {l : List GItem} (h : ds.groupChunkSlices p ext sort = ok l) : ∀ g ∈ l,
      readRaw file g.chunk.addr g.chunk.size = readRaw file' g.chunk.addr g.chunk.size := by
  unfold Dataset.groupChunkSlices at h
  obtain ⟨l', h1, h⟩ := bind_eq_ok.1 h
  obtain rfl := Outcome.ok.inj h
  obtain ⟨items, h2, h3⟩ := groupUnsorted_inv h1
  intro g hg
  obtain ⟨it, hit, e⟩ := groupScan_chunks h3 g ((hsort l').mem_iff.2 hg)
  rw [← e]
  exact same_items hwf hfit hsame h2 it hit

theorem readChunk_same {p : Profile} {io : Io} {file file' : List Byte} {a n csz dsz : Nat}
    {gz sh : Bool} (h : readRaw file a n = readRaw file' a n) :
    readChunk p io file a n csz dsz gz sh = readChunk p (withFile io file') file' a n csz dsz gz sh := by
  unfold readChunk
  rw [h]
  rfl

/-- C63 for the sequential direct read: the outcome and the destination. -/
theorem C63_direct {p : Profile} {io : Io} {ds : Dataset} {ext : Extents} {file file' : List Byte}
    {sort : List GItem → List GItem} {dst : List Byte}
    (hwf : WF p ds) (hfit : EndsFit ds ext) (hsame : SameWhereNeeded ds ext file file')
    (hsort : ∀ l, SortedByAddr l (sort l)) :
    directReadTo p (withFile io file) ds sort ext dst =
      directReadTo p (withFile io file') ds sort ext dst := by
  unfold directReadTo
  cases hc : chunkBytes p ds with
  | ok csz =>
    cases hv : reqBytes p ds ext with
    | ok vsz =>
      cases he : ensure (decide (vsz ≤ dst.length)) Err.capacity with
      | ok u =>
        cases hg : ds.groupChunkSlices p ext sort with
        | ok l =>
          have hl := same_groups hwf hfit hsame (fun l => (hsort l).1) hg
          have := loop_congr (f := directStep p (withFile io file) file ds csz)
            (g := directStep p (withFile io file') file' ds csz) (bs := l) (fun s g hg => by
              unfold directStep directChunk
              rw [readChunk_same (hl g hg)]
              rfl) ⟨none, dst⟩
          simp [withFile, he] at this ⊢
          rw [this]
          exact ⟨rfl, rfl⟩
        | _ => simp [withFile, he]
      | _ => simp [withFile, he]
    | _ => simp [withFile]
  | _ => simp [withFile]

/-- C63 for the parallel read: the set of possible results, over all schedules. -/
theorem C63_par {p : Profile} {io : Io} {ds : Dataset} {ext : Extents} {file file' : List Byte}
    {sort : List GItem → List GItem} {dst : List Byte}
    (hwf : WF p ds) (hfit : EndsFit ds ext) (hsame : SameWhereNeeded ds ext file file')
    (hsort : ∀ l, SortedByAddr l (sort l)) (res : Outcome Nat × List Byte)
    (h : DirectReadToPar p (withFile io file) ds sort ext dst res) :
    DirectReadToPar p (withFile io file') ds sort ext dst res := by
  cases h with
  | early e h hne => exact .early e h hne
  | ran csz vsz groups r dst' h hrun =>
    refine .ran csz vsz groups r dst' h ?_
    have hl : ∃ l, ds.groupChunkSlices p ext sort = ok l ∧ groups = chunkBy l := by
      unfold parPrelude at h
      obtain ⟨_, -, h⟩ := bind_eq_ok.1 h
      obtain ⟨_, -, h⟩ := bind_eq_ok.1 h
      obtain ⟨_, -, h⟩ := bind_eq_ok.1 h
      obtain ⟨l, h1, h⟩ := bind_eq_ok.1 h
      exact ⟨l, h1, ((Prod.mk.inj (Prod.mk.inj (Outcome.ok.inj h)).2).2).symm⟩
    obtain ⟨l, hl, rfl⟩ := hl
    have hs := same_groups hwf hfit hsame (fun l => (hsort l).1) hl
    have : (chunkBy l).map (parGroup p (withFile io file) ds csz dst.length) =
        (chunkBy l).map (parGroup p (withFile io file') ds csz dst.length) := by
      refine List.map_congr_left fun grp hgrp => ?_
      obtain ⟨g, gs, rfl, -⟩ := chunkBy_group l grp hgrp
      have hg : g ∈ l := by
        rw [← chunkBy_flatten l]; exact List.mem_flatten.2 ⟨_, hgrp, by simp⟩
      have := readChunk_same (p := p) (io := withFile io file) (csz := csz) (dsz := ds.dsize)
        (gz := ds.gzip.isSome) (sh := ds.shuffle) (hs g hg)
      unfold parGroup
      simp only [withFile] at this ⊢
      rw [this]
    rw [← this]
    exact hrun

/-- C63 for the caching reader, from any state of the reader: the outcome, the destination and the
state afterwards. -/
theorem C63_cached {p : Profile} {io : Io} {ds : Dataset} {ext : Extents} {file file' : List Byte}
    {rd : CacheReader} {dst : List Byte}
    (hwf : WF p ds) (hfit : EndsFit ds ext) (hsame : SameWhereNeeded ds ext file file') :
    rd.readTo p (withFile io file) file ds ext dst =
      rd.readTo p (withFile io file') file' ds ext dst := by
  unfold CacheReader.readTo
  cases hv : reqBytes p ds ext with
  | ok vsz =>
    cases he : ensure (decide (vsz ≤ dst.length)) Err.capacity with
    | ok u =>
      cases hg : ds.chunkSlices p ext with
      | ok t =>
        have hl := same_items hwf hfit hsame hg
        have := loop_congr (f := cacheStep p (withFile io file) file ds rd.chunkSz)
          (g := cacheStep p (withFile io file') file' ds rd.chunkSz) (bs := t.items) (fun s it hit => by
            unfold cacheStep
            rw [readChunk_same (hl it hit)]
            rfl) ⟨rd.cache, 0, dst⟩
        simp only [ok_bind, he, this]
      | _ => simp [he]
    | _ => simp [he]
  | _ => simp

theorem mapM_bslice {p : Profile} {dsz : Nat} {items : List Item} {l : List BSlice}
    (h : items.mapM (bslice p dsz) = ok l) :
    ∀ b ∈ l, ∃ it ∈ items, b.addr = it.chunk.addr ∧ b.size = it.chunk.size := by
  induction items generalizing l with
  | nil =>
    simp only [List.mapM_nil] at h
    obtain rfl := Outcome.ok.inj h
    simp
  | cons it its ih =>
    rw [List.mapM_cons] at h
    obtain ⟨b, h1, h⟩ := bind_eq_ok.1 h
    obtain ⟨r, h2, h⟩ := bind_eq_ok.1 h
    obtain rfl := Outcome.ok.inj h
    intro b' hb'
    rcases List.mem_cons.1 hb' with rfl | hb'
    · unfold bslice at h1
      obtain ⟨_, -, h1⟩ := bind_eq_ok.1 h1
      obtain ⟨_, -, h1⟩ := bind_eq_ok.1 h1
      obtain rfl := Outcome.ok.inj h1
      exact ⟨it, by simp, rfl, rfl⟩
    · obtain ⟨x, hx, e⟩ := ih h2 b' hb'; exact ⟨x, by simp [hx], e⟩

theorem streamRun_same {p : Profile} {rt : Rt} {io : Io} {ds : Dataset} {ext : Extents}
    {file file' : List Byte} (hwf : WF p ds) (hfit : EndsFit ds ext)
    (hsame : SameWhereNeeded ds ext file file') {l : List BSlice} (h : streamSlices p ds ext = ok l)
    (csz cap : Nat) (factor : Outcome Nat) (conv : List Byte → Outcome (List Byte)) :
    streamRun p rt (withFile io file) ds csz cap factor conv l =
      streamRun p rt (withFile io file') ds csz cap factor conv l := by
  unfold streamSlices at h
  obtain ⟨t, h1, h⟩ := bind_eq_ok.1 h
  obtain ⟨l', h2, h⟩ := bind_eq_ok.1 h
  obtain ⟨_, -, h⟩ := bind_eq_ok.1 h
  obtain rfl := Outcome.ok.inj h
  have hl := same_items hwf hfit hsame h1
  have hb := mapM_bslice h2
  have := loop_congr (f := streamStep p rt (withFile io file) file ds csz factor conv)
    (g := streamStep p rt (withFile io file') file' ds csz factor conv) (bs := l') (fun s b hbl => by
      obtain ⟨it, hit, e1, e2⟩ := hb b hbl
      unfold streamStep readChunkTokio
      rw [e1, e2, hl it hit]
      rfl) ⟨⟨cap, []⟩, []⟩
  unfold streamRun
  simp only [withFile] at this ⊢
  rw [this]

/-- C63 for the streams: all items and how the stream ends. -/
theorem C63_stream {p : Profile} {rt : Rt} {host : Host} {io : Io} {ds : Dataset} {ext : Extents}
    {file file' : List Byte}
    (hwf : WF p ds) (hfit : EndsFit ds ext) (hsame : SameWhereNeeded ds ext file file') :
    streamBytes p rt (withFile io file) ds ext = streamBytes p rt (withFile io file') ds ext ∧
    streamXdr p rt host (withFile io file) ds ext = streamXdr p rt host (withFile io file') ds ext := by
  unfold streamBytes streamXdr
  cases chunkBytes p ds with
  | ok csz =>
    cases h : streamSlices p ds ext with
    | ok l =>
      simp only [ok_bind, streamRun_same (rt := rt) (io := io) hwf hfit hsame h, and_self]
    | _ => simp
  | _ => simp

/-- C63 for remote reads: against servers that serve ranges of the two objects, whatever the order in
which the requests complete, both reads succeed with the same number and the same destination or
neither succeeds. (Here requests also fetch gaps between chunks: those bytes have no influence
either.) -/
theorem C63_s3 {p : Profile} {io : Io} {ds : Dataset} {ext : Extents} {file file' : List Byte}
    {sort sort' : List GItem → List GItem} {server server' : Server}
    {complete complete' : List Request → List Request} {dst : List Byte}
    (hwf : WF p ds) (hfit : EndsFit ds ext) (hsame : SameWhereNeeded ds ext file file')
    (hdet : AddrDet ds) (hpos : ∀ c ∈ ds.chunks, 0 < c.size ∧ c.addr + c.size < W)
    (hlen : file.length < 2 ^ 63) (hlen' : file'.length < 2 ^ 63) (hW : dst.length < W)
    (hsrv : Serves file server) (hsrv' : Serves file' server')
    (hsort : ∀ l, SortedByAddr l (sort l)) (hsort' : ∀ l, SortedByAddr l (sort' l))
    (hcomp : ∀ l, (complete l).Perm l) (hcomp' : ∀ l, (complete' l).Perm l) :
    let r := s3ReadTo p io.inflate ds sort server complete ext dst
    let r' := s3ReadTo p io.inflate ds sort' server' complete' ext dst
    (∀ n, r.1 = ok n ↔ r'.1 = ok n) ∧ (∀ n, r.1 = ok n → r = r') := by
  intro r r'
  have h1 := C17 (p := p) (io := withFile io file) (ext := ext) hdet hpos hlen rfl hsrv hsort hsort hcomp
    dst hW
  have h2 := C17 (p := p) (io := withFile io file') (ext := ext) hdet hpos hlen' rfl hsrv' hsort' hsort
    hcomp' dst hW
  simp only [C63_direct (io := io) (dst := dst) hwf hfit hsame hsort] at h1
  refine ⟨fun n => (h1.1 n).trans (h2.1 n).symm, fun n h => ?_⟩
  exact (h1.2 n h).trans (h2.2 n ((h2.1 n).2 ((h1.1 n).1 h))).symm

/-! ## A concrete case -/

/-- The demo file with the third and fourth chunk and the gap overwritten. -/
def damagedElsewhere : List Byte := Demo.file.take 18 ++ [9, 9, 1, 1, 1]

/-- Rows 0 and 1 of the demo dataset: the first two chunks. -/
def topRows : Extents := .extent [.sliceEnd 0 2, .slice 0]

theorem topRows_fit : EndsFit Demo.ds topRows := by
  rintro start count ⟨-, rfl, rfl⟩
  decide

theorem topRows_same : SameWhereNeeded Demo.ds topRows Demo.file damagedElsewhere := by
  rintro start count ⟨-, rfl, rfl⟩ c ⟨hc, x, hx, hxc⟩
  obtain ⟨a, b, rfl, h1, h2, h3, h4⟩ := Demo.in2 (o1 := 0) (o2 := 0) (d1 := 2) (d2 := 4) hx
  simp only [Demo.ds, List.mem_cons, List.not_mem_nil, or_false] at hc
  rcases hc with rfl | rfl | rfl | rfl
  · decide
  · decide
  · obtain ⟨a', b', he, h5, -⟩ := Demo.in2 (o1 := 2) (o2 := 0) (d1 := 2) (d2 := 2) hxc
    simp only [List.cons.injEq, and_true] at he
    omega
  · obtain ⟨a', b', he, h5, -⟩ := Demo.in2 (o1 := 2) (o2 := 2) (d1 := 2) (d2 := 2) hxc
    simp only [List.cons.injEq, and_true] at he
    omega

/-- The two files are different (a full read of the second fails), yet the top rows are read alike. -/
example (p : Profile) (dst : List Byte) :
    directReadTo p (withFile Demo.io Demo.file) Demo.ds sortByAddr topRows dst =
      directReadTo p (withFile Demo.io damagedElsewhere) Demo.ds sortByAddr topRows dst :=
  C63_direct (Demo.wf p) topRows_fit topRows_same sortByAddr_ok

example : ((CacheReader.withDataset .debug Demo.ds >>= fun rd =>
      (rd.readTo .debug (withFile Demo.io damagedElsewhere) damagedElsewhere Demo.ds topRows
        (List.replicate 16 0)).1) = ok 16) ∧
    ((CacheReader.withDataset .debug Demo.ds >>= fun rd =>
      (rd.readTo .debug (withFile Demo.io damagedElsewhere) damagedElsewhere Demo.ds .all
        (List.replicate 24 0)).1) = err .io) := by
  decide +kernel

end Hidefix.Props
