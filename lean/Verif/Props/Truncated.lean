import Verif.Props.Unsteady
import Verif.Props.Damage

/-!
# Property C49, for everything: a truncated file never gives wrong bytes

`C49_partial` says when a truncated file is noticed. Here: for *every* dataset, well-formed or not, every
selection, every place to cut and both profiles, reading the truncated file gives exactly what reading the
whole file gives, or an I/O error, and nothing else: no other bytes, no other error, no panic and no
undefined behaviour that was not there already. Also for a caching reader that has read any of it before,
while the file was whole or cut elsewhere.
-/

set_option autoImplicit false

namespace Hidefix.Props
open Hidefix Hidefix.Spec Hidefix.Proofs Outcome

theorem rawOr_take (file : List Byte) (m a n : Nat) : RawOr (file.take m) file a n := by
  by_cases h : a + n ≤ (file.take m).length
  · left
    unfold readRaw
    have h' : a + n ≤ file.length := Nat.le_trans h (by simp)
    have hm : a + n ≤ m := Nat.le_trans h (by simp)
    rw [if_pos h, if_pos h', List.drop_take, List.take_take, Nat.min_eq_left (by omega)]
  · by_cases h0 : n = 0
    · left; unfold readRaw; simp [h0]
    · right
      unfold readRaw
      rw [if_neg h, if_neg h0]
      simp

theorem direct_const {p : Profile} {io : Io} {f : List Byte} {ds : Dataset}
    {sort : List GItem → List GItem} {ext : Extents} {dst : List Byte} :
    directReadToU p io (fun _ => some f) ds sort ext dst = directReadTo p (withFile io f) ds sort ext dst := by
  unfold directReadToU directReadTo
  cases hc : chunkBytes p ds with
  | ok csz =>
    cases hv : reqBytes p ds ext with
    | ok vsz =>
      cases he : ensure (decide (vsz ≤ dst.length)) Err.capacity with
      | ok u =>
        cases hg : ds.groupChunkSlices p ext sort with
        | ok l =>
          obtain ⟨h1, h2⟩ := unsteady_const (step := fun f => directStep p (withFile io f) f ds csz)
            (need := directFetch) (f := f) (fun s g h => directStep_nofile (io := withFile io []) h) l
            ⟨none, dst⟩ 1
          have e : (fun f => directStep p (withFile io f) f ds csz) = fun f => directStep p io f ds csz := rfl
          rw [e] at h1 h2
          simp only [ok_bind, he, withFile] at h1 h2 ⊢
          rw [h1, h2]
        | _ => simp [withFile, he]
      | _ => simp [withFile, he]
    | _ => simp [withFile]
  | _ => simp [withFile]

theorem cached_const {p : Profile} {io : Io} {f : List Byte} {ds : Dataset}
    {rd : CacheReader} {ext : Extents} {dst : List Byte} :
    rd.readToU p io (fun _ => some f) ds ext dst = rd.readTo p (withFile io f) f ds ext dst := by
  unfold CacheReader.readToU CacheReader.readTo
  cases hv : reqBytes p ds ext with
  | ok vsz =>
    cases he : ensure (decide (vsz ≤ dst.length)) Err.capacity with
    | ok u =>
      cases hg : ds.chunkSlices p ext with
      | ok t =>
        obtain ⟨h1, h2⟩ := unsteady_const (step := fun f => cacheStep p (withFile io f) f ds rd.chunkSz)
          (need := cacheFetch) (f := f) (fun s g h => cacheStep_nofile (io := withFile io []) h) t.items
          ⟨rd.cache, 0, dst⟩ 0
        have e : (fun f => cacheStep p (withFile io f) f ds rd.chunkSz) =
            fun f => cacheStep p io f ds rd.chunkSz := rfl
        rw [e] at h1 h2
        simp only [ok_bind, he, withFile] at h1 h2 ⊢
        rw [h1, h2]
      | _ => simp [he]
    | _ => simp [he]
  | _ => simp

theorem streamRun_const {p : Profile} {rt : Rt} {io : Io} {f : List Byte} {ds : Dataset}
    {csz cap : Nat} {factor : Outcome Nat} {conv : List Byte → Outcome (List Byte)} {l : List BSlice} :
    streamRunU p rt io (fun _ => some f) ds csz cap factor conv l =
      streamRun p rt (withFile io f) ds csz cap factor conv l := by
  unfold streamRunU streamRun
  obtain ⟨h1, h2⟩ := unsteady_const (step := fun f => streamStep p rt (withFile io f) f ds csz factor conv)
    (need := streamFetch) (f := f) (fun s g h => streamStep_nofile (io := withFile io []) h) l
    ⟨⟨cap, []⟩, []⟩ 1
  have e : (fun f => streamStep p rt (withFile io f) f ds csz factor conv) =
      fun f => streamStep p rt io f ds csz factor conv := rfl
  rw [e] at h1 h2
  simp only [withFile] at h1 h2 ⊢
  rw [h1, h2]

theorem par_const {p : Profile} {io : Io} {f : List Byte} {ds : Dataset}
    {sort : List GItem → List GItem} {ext : Extents} {dst : List Byte} {res : Outcome Nat × List Byte}
    (h : DirectReadToPar p (withFile io f) ds sort ext dst res) :
    DirectReadToParU p io (fun _ => some f) ds sort ext dst res := by
  cases h with
  | early e h hne => exact .early e h hne
  | ran csz vsz groups r dst' h hrun =>
    refine .ran csz vsz groups r dst' h ?_
    have : (groups.mapIdx fun _ grp => parGroup p { io with file := some f } ds csz dst.length grp) =
        groups.map (parGroup p (withFile io f) ds csz dst.length) := by
      exact List.ext_getElem? fun i => by
        rw [List.getElem?_mapIdx, List.getElem?_map]; rfl
    rw [this]
    exact hrun

/-! ## C49 without conditions -/

/-- C49 for the sequential direct read: on a truncated file it does what it does on the whole file, or
returns an I/O error. -/
theorem C49_truncated_direct (p : Profile) (io : Io) (file : List Byte) (m : Nat) (ds : Dataset)
    (sort : List GItem → List GItem) (ext : Extents) (dst : List Byte) :
    let r := directReadTo p (truncated io file m) ds sort ext dst
    let q := directReadTo p (withFile io file) ds sort ext dst
    r = q ∨ r.1 = err .io := by
  intro r q
  have hr : r = directReadToU p io (fun _ => some (file.take m)) ds sort ext dst := direct_const.symm
  rcases direct_unsteady (p := p) (io := io) (F := file) (disk := fun _ => some (file.take m)) (ds := ds)
    (sort := sort) (ext := ext) (dst := dst) (fun l hl k f hk g hg => by
      obtain rfl := Option.some.inj hk; exact rawOr_take _ _ _ _) with h | ⟨h, -⟩
  · exact .inl (hr.trans h)
  · exact .inr (hr ▸ h)

/-- And the destination: if the whole file can be read, every byte is as it was or as that read leaves
it. -/
theorem C49_truncated_direct_bytes {p : Profile} {io : Io} {file : List Byte} {m : Nat} {ds : Dataset}
    {sort : List GItem → List GItem} {ext : Extents} {dst : List Byte} {n : Nat}
    (hdet : AddrDet ds) (hsort : ∀ l : List GItem, l.Perm (sort l)) (hW : dst.length < W)
    (hq : (directReadTo p (withFile io file) ds sort ext dst).1 = ok n) :
    let r := directReadTo p (truncated io file m) ds sort ext dst
    r.2.length = dst.length ∧ ∀ i : Nat, r.2[i]? = dst[i]? ∨
      r.2[i]? = (directReadTo p (withFile io file) ds sort ext dst).2[i]? := by
  intro r
  have hr : r = directReadToU p io (fun _ => some (file.take m)) ds sort ext dst := direct_const.symm
  rcases direct_unsteady (p := p) (io := io) (F := file) (disk := fun _ => some (file.take m)) (ds := ds)
    (sort := sort) (ext := ext) (dst := dst) (fun l hl k f hk g hg => by
      obtain rfl := Option.some.inj hk; exact rawOr_take _ _ _ _) with
    h | ⟨h, csz, l, pre, post, s, h1, h2, h3, h4, h5⟩
  · rw [hr, h]
    obtain ⟨csz, vsz, items, h1, h2, h3, h4⟩ := direct_pre hq
    obtain ⟨l, hl⟩ : ∃ l, ds.groupChunkSlices p ext sort = ok l := by
      revert hq
      unfold directReadTo
      cases ds.groupChunkSlices p ext sort with
      | ok l => exact fun _ => ⟨l, rfl⟩
      | _ => rw [h1, h2]; simp only [ok_bind]; cases ensure _ Err.capacity <;> simp
    obtain ⟨s, hs, he⟩ := direct_fold (io := withFile io file) rfl hq h1 hl
    have := direct_old_or_new hdet hsort hW (io := withFile io file) rfl hq h1 hl
      (List.append_nil l).symm hs
    rw [← he] at this
    exact this
  · have := direct_old_or_new hdet hsort hW (io := withFile io file) rfl hq h1 h2 h3 h4
    rw [← h5, ← hr] at this
    exact this

/-- C49 for the parallel read: every result on the truncated file is an I/O error or a possible result on
the whole file. -/
theorem C49_truncated_par (p : Profile) (io : Io) (file : List Byte) (m : Nat) (ds : Dataset)
    (sort : List GItem → List GItem) (ext : Extents) (dst : List Byte) (res : Outcome Nat × List Byte)
    (h : DirectReadToPar p (truncated io file m) ds sort ext dst res) :
    res.1 = err .io ∨ DirectReadToPar p (withFile io file) ds sort ext dst res :=
  par_unsteady (fun l hl k f hk g hg => by
    obtain rfl := Option.some.inj hk; exact rawOr_take _ _ _ _) res (par_const h)

/-- And its destination, if the whole file can be read. -/
theorem C49_truncated_par_bytes {p : Profile} {io : Io} {file : List Byte} {m : Nat} {ds : Dataset}
    {sort : List GItem → List GItem} {ext : Extents} {dst : List Byte} {n : Nat}
    (hdet : AddrDet ds) (hsort : ∀ l, SortedByAddr l (sort l)) (hW : dst.length < W)
    (hq : (directReadTo p (withFile io file) ds sort ext dst).1 = ok n)
    (res : Outcome Nat × List Byte) (h : DirectReadToPar p (truncated io file m) ds sort ext dst res) :
    res = directReadTo p (withFile io file) ds sort ext dst ∨
    (res.1 = err .io ∧ ∀ i : Nat, res.2[i]? = dst[i]? ∨
      res.2[i]? = (directReadTo p (withFile io file) ds sort ext dst).2[i]?) :=
  par_unsteady_bytes (fun l hl k f hk g hg => by
    obtain rfl := Option.some.inj hk; exact rawOr_take _ _ _ _) hdet hsort hW res (par_const h) hq

/-- C49 for the caching reader, whatever its cache holds: on the truncated file it does what it does on the
whole file, or returns an I/O error and has filled the destination from the front. -/
theorem C49_truncated_cached (p : Profile) (io : Io) (file : List Byte) (m : Nat) (ds : Dataset)
    (rd : CacheReader) (ext : Extents) (dst : List Byte) :
    let r := rd.readTo p (truncated io file m) (file.take m) ds ext dst
    let q := rd.readTo p (withFile io file) file ds ext dst
    r = q ∨ (r.1 = err .io ∧ ∀ n, q.1 = ok n → ∃ k, k ≤ dst.length ∧
      r.2.1 = q.2.1.take k ++ dst.drop k) := by
  intro r q
  have hr : r = rd.readToU p io (fun _ => some (file.take m)) ds ext dst := cached_const.symm
  rw [hr]
  exact cached_unsteady_front (fun t ht k f hk it hit => by
    obtain rfl := Option.some.inj hk; exact rawOr_take _ _ _ _)

/-- C49 for a history of a caching reader: the file is cut at another place at every read (and may be whole
again in between). Each read gives what a new reader gives on the whole file, or an I/O error. -/
theorem C49_truncated_history {p : Profile} {io : Io} {file : List Byte} {ds : Dataset} {rd : CacheReader}
    (hdet : AddrDet ds) (hrd : CacheReader.withDataset p ds = ok rd)
    (hist : List (Nat × Extents × List Byte)) (m : Nat) (ext : Extents) (dst : List Byte) :
    let used := hist.foldl (fun rd h =>
      (rd.readTo p (truncated io file h.1) (file.take h.1) ds h.2.1 h.2.2).2.2) rd
    let r := used.readTo p (truncated io file m) (file.take m) ds ext dst
    let fresh := rd.readTo p (withFile io file) file ds ext dst
    (r.1 = fresh.1 ∧ r.2.1 = fresh.2.1) ∨ r.1 = err .io := by
  intro used r fresh
  have keep : ∀ m, KeepsChunks ds file (fun _ => some (file.take m)) := by
    intro m k f hk c hc
    obtain rfl := Option.some.inj hk
    by_cases h : c.addr + c.size ≤ (file.take m).length
    · left
      have hm : c.addr + c.size ≤ m := Nat.le_trans h (by simp)
      rw [List.drop_take, List.take_take, Nat.min_eq_left (by omega)]
    · exact .inr (Nat.lt_of_not_le h)
  have hu : ∀ (hist : List (Nat × Extents × List Byte)) (rd : CacheReader),
      hist.foldl (fun rd h =>
        (rd.readTo p (truncated io file h.1) (file.take h.1) ds h.2.1 h.2.2).2.2) rd =
      afterReadsU p io ds rd (hist.map fun h => (fun _ => some (file.take h.1), h.2.1, h.2.2)) := by
    intro hist
    induction hist with
    | nil => intro rd; rfl
    | cons x hist ih =>
      intro rd
      rw [List.foldl_cons, ih, List.map_cons]
      show _ = afterReadsU p io ds (rd.readToU p io (fun _ => some (file.take x.1)) ds x.2.1 x.2.2).2.2 _
      rw [cached_const]
      rfl
  have := (C67 (io := io) (file := file) hdet hrd
    (hist.map fun h => (fun _ => some (file.take h.1), h.2.1, h.2.2)) (by
      intro h hh
      obtain ⟨x, -, rfl⟩ := List.mem_map.1 hh
      exact keep x.1) ext dst).2 _ (keep m)
  rw [← hu] at this
  rw [cached_const] at this
  exact this

/-- C49 for the streams: on the truncated file the same items and the same end, or some of the first items
and then an I/O error. -/
theorem C49_truncated_stream (p : Profile) (rt : Rt) (host : Host) (io : Io) (file : List Byte) (m : Nat)
    (ds : Dataset) (ext : Extents) :
    (streamBytes p rt (truncated io file m) ds ext = streamBytes p rt (withFile io file) ds ext ∨
      ∃ t q, streamBytes p rt (truncated io file m) ds ext = ok t ∧
        streamBytes p rt (withFile io file) ds ext = ok q ∧ t.ending = err .io ∧ t.items <+: q.items) ∧
    (streamXdr p rt host (truncated io file m) ds ext = streamXdr p rt host (withFile io file) ds ext ∨
      ∃ t q, streamXdr p rt host (truncated io file m) ds ext = ok t ∧
        streamXdr p rt host (withFile io file) ds ext = ok q ∧ t.ending = err .io ∧
        t.items <+: q.items) := by
  have h1 : streamBytes p rt (truncated io file m) ds ext =
      streamBytesU p rt io (fun _ => some (file.take m)) ds ext := by
    unfold streamBytes streamBytesU
    simp only [streamRun_const]
    rfl
  have h2 : streamXdr p rt host (truncated io file m) ds ext =
      streamXdrU p rt host io (fun _ => some (file.take m)) ds ext := by
    unfold streamXdr streamXdrU
    simp only [streamRun_const]
    rfl
  rw [h1, h2]
  exact stream_unsteady (fun t ht k f hk it hit => by
    obtain rfl := Option.some.inj hk; exact rawOr_take _ _ _ _)

/-! ## Instances -/

/-- The last chunk of `Demo.ds` is cut by one byte: the whole dataset is an I/O error, with the first
rows in the destination; the first rows alone are as in the whole file. -/
example :
    let r := directReadTo .debug (truncated Demo.io Demo.file 37) Demo.ds id .all (List.replicate 24 9)
    let q := directReadTo .debug (withFile Demo.io Demo.file) Demo.ds id .all (List.replicate 24 9)
    (decide (r.1 = err .io), decide (q.1 = ok 24), decide (r.2 = q.2),
      decide (r.2.take 12 = q.2.take 12),
      decide (directReadTo .debug (truncated Demo.io Demo.file 37) Demo.ds id topRows
          (List.replicate 16 9) =
        directReadTo .debug (withFile Demo.io Demo.file) Demo.ds id topRows (List.replicate 16 9))) =
    (true, true, false, true, true) := by
  decide +kernel

example (p : Profile) (dst : List Byte) (res : Outcome Nat × List Byte)
    (h : DirectReadToPar p (truncated Demo.io Demo.file 37) Demo.ds sortByAddr .all dst res) :
    res.1 = err .io ∨ DirectReadToPar p (withFile Demo.io Demo.file) Demo.ds sortByAddr .all dst res :=
  C49_truncated_par p Demo.io Demo.file 37 Demo.ds sortByAddr .all dst res h

/-- A caching reader that has seen the file cut at 37 and at 5 bytes. -/
example (p : Profile) (rd : CacheReader) (hrd : CacheReader.withDataset p Demo.ds = ok rd)
    (dst : List Byte) :
    let used := [(37, Extents.all, List.replicate 24 0), (5, topRows, List.replicate 16 0)].foldl
      (fun rd h => (rd.readTo p (truncated Demo.io Demo.file h.1) (Demo.file.take h.1) Demo.ds
        h.2.1 h.2.2).2.2) rd
    let r := used.readTo p (truncated Demo.io Demo.file 38) (Demo.file.take 38) Demo.ds .all dst
    let fresh := rd.readTo p (withFile Demo.io Demo.file) Demo.file Demo.ds .all dst
    (r.1 = fresh.1 ∧ r.2.1 = fresh.2.1) ∨ r.1 = err .io :=
  C49_truncated_history Demo.addr hrd _ 38 .all dst

end Hidefix.Props
