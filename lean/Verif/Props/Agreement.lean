import Verif.Props.Remote
import Verif.Props.Streaming
import Verif.Props.Refuted
import Verif.Proofs.WrappedS3
import Verif.Proofs.WrappedStream

/-!
# Properties C12, C13, C17, C19: agreement of the readers, for every dataset and selection

Debug builds check all arithmetic; release builds wrap around, but a read that succeeds has passed
the bounds checks of every copy, and then the wrapped positions follow each other without gaps. So
the readers agree on success for any index and any selection: no well-formedness and no goodness is
assumed here. A Rust slice is shorter than `2^64`: `hW`.
-/

set_option autoImplicit false

namespace Hidefix.Props
open Hidefix Hidefix.Spec Hidefix.Proofs Outcome

/-- What a successful read of the selection does, for both profiles: a condition and a result that
the destination readers share. -/
theorem agree_core {p : Profile} {io : Io} {file : List Byte} {ds : Dataset} {ext : Extents}
    {csz vsz : Nat} {items : List Item} {dst : List Byte} (hdet : AddrDet ds)
    (hf : io.file = some file) (hc : chunkBytes p ds = ok csz) (hv : reqBytes p ds ext = ok vsz)
    (hs : ds.chunkSlices p ext = ok ⟨items, ok ()⟩) (hn : vsz ≤ dst.length) (hW : dst.length < W) :
    ∃ (G : Prop) (out : List Byte),
      (∀ sort : List GItem → List GItem, (∀ l : List GItem, l.Perm (sort l)) →
        (∀ n, (directReadTo p io ds sort ext dst).1 = ok n ↔ n = vsz ∧ G) ∧
        (G → directReadTo p io ds sort ext dst = (ok vsz, out))) ∧
      (∀ sort : List GItem → List GItem, (∀ l : List GItem, l.Perm (sort l)) →
        ∀ res, DirectReadToPar p io ds sort ext dst res →
        (∀ n, res.1 = ok n ↔ n = vsz ∧ G) ∧ (G → res = (ok vsz, out))) ∧
      ((∀ n, (nocacheReadTo p io file ds csz ext dst).1 = ok n ↔ n = vsz ∧ G) ∧
        (G → nocacheReadTo p io file ds csz ext dst = (ok vsz, out))) := by
  cases p with
  | debug =>
    have hS := checked_sliced (.inl rfl) hc hv hs
    refine ⟨∀ it ∈ items, Ready (rawD .debug io file ds csz) ds.dsize it.chunk it.stop,
      blit dst 0 (items.flatMap (bytesOf (rawD .debug io file ds csz) ds.dsize)), ?_, ?_, ?_, ?_⟩
    · intro sort hsort
      exact directReadTo_iff hdet hsort hc hf hS hn
    · intro sort hsort res hres
      rcases directPar_cases hdet hsort hc hf (safe_rawD _ _ _ _ _) hS hn hres with
        ⟨h5, h6⟩ | ⟨h5, h6, -⟩
      · rw [h6]
        refine ⟨fun n => ⟨fun h => ⟨(Outcome.ok.inj h).symm, h5⟩, ?_⟩, fun _ => rfl⟩
        rintro ⟨rfl, -⟩; rfl
      · exact ⟨fun n => ⟨fun h => absurd h (h6 n), fun h => absurd h.2 h5⟩, fun h => absurd h h5⟩
    · intro n; exact nocacheReadTo_iff hS hn n
    · exact nocacheReadTo_dst hS hn
  | release =>
    refine ⟨FineAll (rawD .release io file ds csz) ds.dsize dst.length items,
      blit dst 0 (items.flatMap (bytesN (rawD .release io file ds csz) ds.dsize)), ?_, ?_, ?_⟩
    · intro sort hsort; exact directReadTo_release hdet hsort hc hf hs hv hn hW
    · intro sort hsort res hres; exact directPar_release hdet hsort hc hf hs hv hn hW hres
    · exact nocacheReadTo_release hs hv hn

/-- When `Direct::read_to` succeeds, its preliminary steps did. -/
theorem direct_pre {p : Profile} {io : Io} {ds : Dataset} {ext : Extents}
    {sort : List GItem → List GItem} {dst : List Byte} {n : Nat}
    (hok : (directReadTo p io ds sort ext dst).1 = ok n) :
    ∃ csz vsz items, chunkBytes p ds = ok csz ∧ reqBytes p ds ext = ok vsz ∧
      ds.chunkSlices p ext = ok ⟨items, ok ()⟩ ∧ vsz ≤ dst.length := by
  obtain ⟨vsz, h2, items, h3⟩ := directReadTo_inv hok
  have h4 := directReadTo_fits h2 hok
  cases hc : chunkBytes p ds with
  | ok csz => exact ⟨csz, vsz, items, rfl, h2, h3, h4⟩
  | _ => simp [directReadTo, hc] at hok

theorem par_pre {p : Profile} {io : Io} {ds : Dataset} {ext : Extents}
    {sort : List GItem → List GItem} {dst : List Byte} {n : Nat} {res : Outcome Nat × List Byte}
    (hres : DirectReadToPar p io ds sort ext dst res) (hok : res.1 = ok n) :
    ∃ csz vsz items, chunkBytes p ds = ok csz ∧ reqBytes p ds ext = ok vsz ∧
      ds.chunkSlices p ext = ok ⟨items, ok ()⟩ ∧ vsz ≤ dst.length := by
  cases hres with
  | early e he hne => exact absurd hok (hne n)
  | ran csz vsz groups r dst' hpre hrun =>
    obtain ⟨h1, h2, h3, l, h4, -⟩ := parPrelude_inv hpre
    obtain ⟨items, h5, -⟩ := groupUnsorted_inv h4
    exact ⟨csz, vsz, items, h1, h2, h5, h3⟩

/-- C13: every result of `read_to_par` (every schedule, every order in which the writes happen) and
every result of the sequential read agree: if one succeeds so does the other, with the same number
and the same destination. For every dataset, file, selection and destination, in debug and release
builds. (How a read fails may differ: `not_C13`.) -/
theorem C13 {p : Profile} {io : Io} {file : List Byte} {ds : Dataset} {ext : Extents}
    {sort sort' : List GItem → List GItem} (hdet : AddrDet ds) (hf : io.file = some file)
    (hsort : ∀ l, SortedByAddr l (sort l)) (hsort' : ∀ l, SortedByAddr l (sort' l))
    (dst : List Byte) (hW : dst.length < W)
    (res : Outcome Nat × List Byte) (hres : DirectReadToPar p io ds sort ext dst res) :
    (∀ n, res.1 = ok n ↔ (directReadTo p io ds sort' ext dst).1 = ok n) ∧
    (∀ n, res.1 = ok n → res = directReadTo p io ds sort' ext dst) := by
  by_cases hs : ∃ csz vsz items, chunkBytes p ds = ok csz ∧ reqBytes p ds ext = ok vsz ∧
      ds.chunkSlices p ext = ok ⟨items, ok ()⟩ ∧ vsz ≤ dst.length
  · obtain ⟨csz, vsz, items, h1, h2, h3, h4⟩ := hs
    obtain ⟨G, out, hd, hp, -⟩ := agree_core hdet hf h1 h2 h3 h4 hW
    obtain ⟨d1, d2⟩ := hd sort' fun l => (hsort' l).1
    obtain ⟨p1, p2⟩ := hp sort (fun l => (hsort l).1) res hres
    refine ⟨fun n => (p1 n).trans (d1 n).symm, fun n h => ?_⟩
    have hG := ((p1 n).1 h).2
    rw [p2 hG, d2 hG]
  · exact ⟨fun n => ⟨fun h => absurd (par_pre hres h) hs, fun h => absurd (direct_pre h) hs⟩,
      fun n h => absurd (par_pre hres h) hs⟩

/-- C12 for the readers that fill a destination: `CacheReader` (after any history of reads),
`Direct::read_to` and every result of `Direct::read_to_par` succeed with the same number of bytes and
the same destination, or none of them succeeds. For every dataset, file, selection and destination,
in debug and release builds. -/
theorem C12_destination {p : Profile} {io : Io} {file : List Byte} {ds : Dataset} {ext : Extents}
    {sort sort' : List GItem → List GItem} {rd : CacheReader}
    (hdet : AddrDet ds) (hf : io.file = some file) (hsort : ∀ l, SortedByAddr l (sort l))
    (hsort' : ∀ l, SortedByAddr l (sort' l)) (hrd : CacheReader.withDataset p ds = ok rd)
    (hist : List (Extents × List Byte)) (dst : List Byte) (hW : dst.length < W)
    (res : Outcome Nat × List Byte) (hres : DirectReadToPar p io ds sort ext dst res) :
    let cached := (afterReads p io file ds rd hist).readTo p io file ds ext dst
    let direct := directReadTo p io ds sort' ext dst
    (∀ n, cached.1 = ok n ↔ direct.1 = ok n) ∧ (∀ n, direct.1 = ok n ↔ res.1 = ok n) ∧
    (∀ n, direct.1 = ok n → cached.2.1 = direct.2 ∧ res.2 = direct.2) := by
  intro cached direct
  obtain ⟨e1, e2⟩ := cache_read (io := io) (file := file) hdet hrd hist ext dst
  obtain ⟨-, hc, -⟩ := withDataset_inv (io := io) (file := file) hrd
  obtain ⟨q1, q2⟩ := C13 hdet hf hsort hsort' dst hW res hres
  have hcd : (∀ n, cached.1 = ok n ↔ direct.1 = ok n) ∧
      (∀ n, direct.1 = ok n → cached.2.1 = direct.2) := by
    by_cases hs : ∃ vsz items, reqBytes p ds ext = ok vsz ∧
        ds.chunkSlices p ext = ok ⟨items, ok ()⟩ ∧ vsz ≤ dst.length
    · obtain ⟨vsz, items, h2, h3, h4⟩ := hs
      obtain ⟨G, out, hd, -, n1, n2⟩ := agree_core hdet hf hc h2 h3 h4 hW
      obtain ⟨d1, d2⟩ := hd sort' fun l => (hsort' l).1
      refine ⟨fun n => ?_, fun n hn => ?_⟩
      · rw [d1 n]
        simp only [cached]
        rw [e1, n1 n]
      · have hG := ((d1 n).1 hn).2
        simp only [cached, direct]
        rw [e2, d2 hG, n2 hG]
    · have k1 : ∀ n, ¬ cached.1 = ok n := by
        intro n hok
        simp only [cached] at hok
        rw [e1] at hok
        obtain ⟨vsz, h2, items, h3⟩ := nocacheReadTo_inv hok
        exact hs ⟨vsz, items, h2, h3, nocacheReadTo_fits h2 hok⟩
      have k2 : ∀ n, ¬ direct.1 = ok n := by
        intro n hok
        obtain ⟨vsz, h2, items, h3⟩ := directReadTo_inv hok
        exact hs ⟨vsz, items, h2, h3, directReadTo_fits h2 hok⟩
      exact ⟨fun n => ⟨fun h => absurd h (k1 n), fun h => absurd h (k2 n)⟩,
        fun n h => absurd h (k2 n)⟩
  exact ⟨hcd.1, fun n => (q1 n).symm, fun n hn => ⟨hcd.2 n hn, congrArg Prod.snd (q2 n ((q1 n).2 hn))⟩⟩

/-- C12 for the stream, for every dataset, file and selection, in debug and release builds: the direct
read into a destination with room for the selection's `vsz` bytes succeeds exactly when the stream
ends without error and what it yields fits the destination, and then the stream's items, concatenated,
are what the direct read put at the start of the destination. Where the two can differ: in release
builds the stream may end without error and yield more than the destination can hold (`not_C12`). -/
theorem C12_stream {p : Profile} {rt : Rt} {io : Io} {file : List Byte} {ds : Dataset}
    {ext : Extents} {sort : List GItem → List GItem} {rd : CacheReader} {vsz : Nat}
    (hdet : AddrDet ds) (hf : io.file = some file)
    (hsort : ∀ l, SortedByAddr l (sort l)) (hrd : CacheReader.withDataset p ds = ok rd)
    (hrt : rt ≠ .currentThread) (hv : reqBytes p ds ext = ok vsz) (dst : List Byte)
    (hd : vsz ≤ dst.length) (hW : dst.length < W) :
    ((∃ n, (directReadTo p io ds sort ext dst).1 = ok n) ↔
      ∃ items, streamBytes p rt io ds ext = ok ⟨items, ok ()⟩ ∧ items.flatten.length ≤ dst.length) ∧
    ∀ items, streamBytes p rt io ds ext = ok ⟨items, ok ()⟩ → items.flatten.length ≤ dst.length →
      directReadTo p io ds sort ext dst =
        (ok vsz, items.flatten ++ dst.drop items.flatten.length) := by
  obtain ⟨-, hc, -, hpos, -⟩ := withDataset_inv (io := io) (file := file) hrd
  by_cases hs : ∃ its, ds.chunkSlices p ext = ok ⟨its, ok ()⟩
  · obtain ⟨its, h3⟩ := hs
    cases p with
    | debug =>
      have hS := checked_sliced (.inl rfl) hc hv h3
      obtain ⟨d1, d2⟩ := directReadTo_iff hdet (fun l => (hsort l).1) hc hf hS hd
      obtain ⟨⟨titems, tend⟩, t1, t2, t3, -⟩ := streamBytes_spec hdet hf hc hpos hS hrt
      have hfit : tend = ok () → titems.flatten.length ≤ dst.length := by
        intro he
        have e := t3 he
        simp only at e
        rw [e, ← List.flatMap_def, flatMap_bytesOf_length (fun it hit => Nat.le_of_lt (hS.le it hit))
          (t2.1 he)]
        exact Nat.le_trans hS.fits hd
      refine ⟨⟨?_, ?_⟩, ?_⟩
      · rintro ⟨n, hn⟩
        have := t2.2 ((d1 n).1 hn).2
        simp only at this
        subst this
        exact ⟨_, t1, hfit rfl⟩
      · rintro ⟨items, h, -⟩
        rw [t1] at h
        obtain ⟨rfl, rfl⟩ := Trace.mk.inj (Outcome.ok.inj h)
        exact ⟨vsz, (d1 vsz).2 ⟨rfl, t2.1 rfl⟩⟩
      · intro items h _
        rw [t1] at h
        obtain ⟨rfl, rfl⟩ := Trace.mk.inj (Outcome.ok.inj h)
        have e := t3 rfl
        simp only at e
        rw [d2 (t2.1 rfl), blit_zero, e, List.flatMap_def]
    | release =>
      obtain ⟨d1, d2⟩ := directReadTo_release hdet (fun l => (hsort l).1) hc hf h3 hv hd hW
      obtain ⟨⟨titems, tend⟩, t1, t2, t3⟩ := streamBytes_release hdet hf hc hpos h3 hrt
      have hlen : tend = ok () →
          titems.flatten.length = total (its.map (normI ds.dsize)) := by
        intro he
        have e := t3 he
        simp only at e
        have e2 : its.map (bytesN (rawD .release io file ds rd.chunkSz) ds.dsize) =
            (its.map (normI ds.dsize)).map (bytesOf (rawD .release io file ds rd.chunkSz) 1) := by
          rw [List.map_map]; rfl
        rw [e, e2, ← List.flatMap_def, flatMap_bytesOf_length (fun it hit => (t2.1 he it hit).1)
          (fun it hit => (t2.1 he it hit).2), Nat.mul_one]
      refine ⟨⟨?_, ?_⟩, ?_⟩
      · rintro ⟨n, hn⟩
        obtain ⟨-, h1, h2⟩ := (d1 n).1 hn
        have he := t2.2 h1
        simp only at he
        subst he
        exact ⟨_, t1, by rw [hlen rfl]; exact h2⟩
      · rintro ⟨items, h, hl⟩
        rw [t1] at h
        obtain ⟨rfl, rfl⟩ := Trace.mk.inj (Outcome.ok.inj h)
        exact ⟨vsz, (d1 vsz).2 ⟨rfl, t2.1 rfl, by rw [← hlen rfl]; exact hl⟩⟩
      · intro items h hl
        rw [t1] at h
        obtain ⟨rfl, rfl⟩ := Trace.mk.inj (Outcome.ok.inj h)
        have e := t3 rfl
        simp only at e
        rw [d2 ⟨t2.1 rfl, by rw [← hlen rfl]; exact hl⟩, blit_zero, e, List.flatMap_def]
  · have k1 : ∀ items, ¬ streamBytes p rt io ds ext = ok ⟨items, ok ()⟩ := by
      intro items h
      unfold streamBytes at h
      obtain ⟨_, -, h⟩ := bind_eq_ok.1 h
      obtain ⟨_, h1, -⟩ := bind_eq_ok.1 h
      exact hs (streamSlices_inv h1)
    refine ⟨⟨?_, ?_⟩, fun items h => absurd h (k1 items)⟩
    · rintro ⟨n, hn⟩
      obtain ⟨_, -, items, h⟩ := directReadTo_inv hn
      exact absurd ⟨items, h⟩ hs
    · rintro ⟨items, h, -⟩; exact absurd h (k1 items)

/-! ## The S3 reader -/

/-- A chunk that was read and decoded and is stored in at least one byte lies inside the file. -/
theorem rawD_inside {p : Profile} {io : Io} {file v : List Byte} {ds : Dataset} {csz : Nat} {c : Chunk}
    (hv : rawD p io file ds csz c = ok v) (hp : 0 < c.size) : c.addr + c.size ≤ file.length := by
  unfold rawD readChunk readRaw at hv
  obtain ⟨_, -, hv⟩ := bind_eq_ok.1 hv
  obtain ⟨_, hv, -⟩ := bind_eq_ok.1 hv
  split at hv
  · simp at hv
  · split at hv
    · assumption
    · rw [if_neg (by omega)] at hv; simp at hv

/-- Both profiles: what an S3 read against a truthful server does, next to the direct read. -/
theorem s3_agree {p : Profile} {io : Io} {file : List Byte} {ds : Dataset} {ext : Extents}
    {csz vsz : Nat} {items : List Item} {dst : List Byte} {sort sort' : List GItem → List GItem}
    {server : Server} {complete : List Request → List Request} (hdet : AddrDet ds)
    (hpos : ∀ c ∈ ds.chunks, 0 < c.size ∧ c.addr + c.size < W) (hlen : file.length < 2 ^ 63)
    (hf : io.file = some file) (hsrv : Truthful file server)
    (hsort : ∀ l : List GItem, l.Perm (sort l)) (hsort' : ∀ l : List GItem, l.Perm (sort' l))
    (hcomp : ∀ l, (complete l).Perm l) (hc : chunkBytes p ds = ok csz)
    (hv : reqBytes p ds ext = ok vsz) (hs : ds.chunkSlices p ext = ok ⟨items, ok ()⟩)
    (hn : vsz ≤ dst.length) (hW : dst.length < W) :
    ∃ reqs, s3Prelude p ds sort ext dst.length = ok (csz, vsz, reqs) ∧ (∀ r ∈ reqs, ReqOk' r) ∧
      (∀ n, (s3ReadTo p io.inflate ds sort server complete ext dst).1 = ok n ↔
        (∀ r ∈ reqs, Usable server r.start (r.stop - 1)) ∧
        (directReadTo p io ds sort' ext dst).1 = ok n) ∧
      (∀ n, (s3ReadTo p io.inflate ds sort server complete ext dst).1 = ok n →
        (s3ReadTo p io.inflate ds sort server complete ext dst).2 =
          (directReadTo p io ds sort' ext dst).2) ∧
      (∀ n, (directReadTo p io ds sort' ext dst).1 = ok n → ∀ r ∈ reqs, r.stop ≤ file.length) := by
  cases p with
  | debug =>
    have hS := checked_sliced (.inl rfl) hc hv hs
    obtain ⟨reqs, hreqs, hrok, hinv, q1, q2⟩ := s3ReadTo_iff (io := io) (dst := dst) hdet hsort hcomp
      hlen hsrv hpos hc hS hn
    obtain ⟨d1, d2⟩ := directReadTo_iff hdet hsort' hc hf hS hn
    refine ⟨reqs, ?_, hrok, fun n => ?_, fun n h => ?_, fun n h r hr => ?_⟩
    · unfold s3Prelude
      rw [hc, ok_bind, hS.req, ok_bind, show decide (vsz ≤ dst.length) = true by simpa using hn,
        ensure_true, ok_bind, hS.groups, ok_bind, hreqs, ok_bind]
    · rw [q1 n, d1 n]
      exact ⟨fun h => ⟨h.2.1, h.1, h.2.2⟩, fun h => ⟨h.2.1, h.1, h.2.2⟩⟩
    · rw [q2 n h, d2 ((q1 n).1 h).2.2]
    · obtain ⟨-, hr'⟩ := (d1 n).1 h
      obtain ⟨init, c, hc1, hc2⟩ := (hrok r hr).last
      obtain ⟨g, hg, e⟩ := hinv.mem r hr c (by rw [hc1]; simp)
      have hg' := (hsort (tile 0 items)).mem_iff.2 hg
      obtain ⟨v, hv, -⟩ := hr' _ (tile_mem hg')
      simp only at hv
      rw [e] at hv
      rw [hc2]
      exact rawD_inside hv ((hrok r hr).pos c (by rw [hc1]; simp))
  | release =>
    obtain ⟨gs, reqs, hreqs, hrok, hinv, hgs, q1, q2⟩ := s3ReadTo_release (io := io) (dst := dst) hdet
      hsort hcomp hlen hsrv hpos hc hs hv hn hW
    obtain ⟨d1, d2⟩ := directReadTo_release hdet hsort' hc hf hs hv hn hW
    obtain ⟨gs', hgu, hgs'⟩ := groupUnsorted_release hs
    rw [hgs] at hgs'
    obtain rfl := Outcome.ok.inj hgs'
    refine ⟨reqs, ?_, hrok, fun n => ?_, fun n h => ?_, fun n h r hr => ?_⟩
    · unfold s3Prelude Dataset.groupChunkSlices
      rw [hc, ok_bind, hv, ok_bind, show decide (vsz ≤ dst.length) = true by simpa using hn,
        ensure_true, ok_bind, hgu, ok_bind, ok_bind, hreqs, ok_bind]
    · rw [q1 n, d1 n]
      exact ⟨fun h => ⟨h.2.1, h.1, h.2.2⟩, fun h => ⟨h.2.1, h.1, h.2.2⟩⟩
    · rw [q2 n h, d2 ((q1 n).1 h).2.2]
    · obtain ⟨-, hfa⟩ := (d1 n).1 h
      have hst := chunkSlices_start_lt hs
      have hfine := (fine_iff (D := rawD .release io file ds csz) (dsz := ds.dsize) hW hst hgs).1.2 hfa
      obtain ⟨init, c, hc1, hc2⟩ := (hrok r hr).last
      obtain ⟨g, hg, e⟩ := hinv.mem r hr c (by rw [hc1]; simp)
      obtain ⟨v, hv, -⟩ := (hfine g ((hsort gs).mem_iff.2 hg)).2
      rw [e] at hv
      rw [hc2]
      exact rawD_inside hv ((hrok r hr).pos c (by rw [hc1]; simp))

theorem forwardOnly_truthful {file : List Byte} {server : Server} (hsrv : Serves file server) :
    Truthful file (forwardOnly server) := by
  refine truthful_of_serves ⟨fun a b h1 h2 => ?_, fun a b s body h1 h2 => ?_⟩
    (fun a b s body h1 h2 => ?_)
  · unfold forwardOnly; rw [if_pos h1]; exact hsrv.inside a b h1 h2
  · unfold forwardOnly at h2
    split at h2
    · exact hsrv.outside a b s body h1 h2
    · simp at h2
  · unfold forwardOnly at h2; rw [if_neg (by omega)] at h2; simp at h2

/-- C17: against a server that serves ranges of the object correctly, an S3 read and
`Direct::read_to` on a file with the same content both succeed, with the same number and the same
destination, or neither succeeds, for every order in which the concurrent requests complete. For every
dataset whose chunks are stored in at least one byte, every selection and destination, in debug and
release builds. -/
theorem C17 {p : Profile} {io : Io} {file : List Byte} {ds : Dataset} {ext : Extents}
    {sort sort' : List GItem → List GItem} {server : Server}
    {complete : List Request → List Request} (hdet : AddrDet ds)
    (hpos : ∀ c ∈ ds.chunks, 0 < c.size ∧ c.addr + c.size < W) (hlen : file.length < 2 ^ 63)
    (hf : io.file = some file) (hsrv : Serves file server)
    (hsort : ∀ l, SortedByAddr l (sort l)) (hsort' : ∀ l, SortedByAddr l (sort' l))
    (hcomp : ∀ l, (complete l).Perm l) (dst : List Byte) (hW : dst.length < W) :
    let remote := s3ReadTo p io.inflate ds sort server complete ext dst
    let direct := directReadTo p io ds sort' ext dst
    (∀ n, remote.1 = ok n ↔ direct.1 = ok n) ∧ (∀ n, remote.1 = ok n → remote = direct) := by
  intro remote direct
  by_cases hs : ∃ csz vsz items, chunkBytes p ds = ok csz ∧ reqBytes p ds ext = ok vsz ∧
      ds.chunkSlices p ext = ok ⟨items, ok ()⟩ ∧ vsz ≤ dst.length
  · obtain ⟨csz, vsz, items, h1, h2, h3, h4⟩ := hs
    obtain ⟨reqs, hpre, hrok, q1, q2, q3⟩ := s3_agree (sort' := sort') (io := io) (dst := dst) hdet hpos
      hlen hf (forwardOnly_truthful hsrv) (fun l => (hsort l).1) (fun l => (hsort' l).1) hcomp h1 h2 h3
      h4 hW
    have hfw : remote = s3ReadTo p io.inflate ds sort (forwardOnly server) complete ext dst := by
      show s3ReadTo p io.inflate ds sort server complete ext dst = _
      unfold s3ReadTo
      rw [hpre]
      simp only
      rw [loop_congr (f := s3Step p io.inflate ds csz (forwardOnly server))
        (g := s3Step p io.inflate ds csz server)]
      intro s o ho
      apply s3Step_forward
      rintro r rfl
      simp only [List.mem_flatMap, requestOps, List.mem_cons, reduceCtorEq, S3Op.recv.injEq] at ho
      obtain ⟨r', hr', e⟩ := ho
      rcases e with rfl | ⟨cs, -, h'⟩
      · exact (hrok r ((hcomp reqs).mem_iff.1 hr')).start_lt
      · simp at h'
    have huse : ∀ n, direct.1 = ok n → ∀ r ∈ reqs, Usable (forwardOnly server) r.start (r.stop - 1) := by
      intro n hn r hr
      have hlt := (hrok r hr).start_lt
      have hin := q3 n hn r hr
      refine ⟨206, (file.drop r.start).take (r.stop - 1 + 1 - r.start), ?_, .inl rfl, ?_⟩
      · unfold forwardOnly
        rw [if_pos (by omega)]
        exact hsrv.inside _ _ (by omega) (by omega)
      · simp only [List.length_take, List.length_drop]; omega
    rw [hfw]
    refine ⟨fun n => ?_, fun n hn => ?_⟩
    · rw [q1 n]
      exact ⟨fun h => h.2, fun h => ⟨huse n h, h⟩⟩
    · exact Prod.ext (hn.trans (((q1 n).1 hn).2).symm) (q2 n hn)
  · have key : ∀ n, ¬ remote.1 = ok n := fun n hok => hs (s3ReadTo_inv hok)
    have key' : ∀ n, ¬ direct.1 = ok n := fun n hok => hs (direct_pre hok)
    exact ⟨fun n => ⟨fun h => absurd h (key n), fun h => absurd h (key' n)⟩,
      fun n h => absurd h (key n)⟩

/-- C19: against a server that does not make up bytes - it may ignore `Range` and answer `200` with the
whole object, answer with any other status, send too few or too many bytes, or fail, differently for
every request - a successful S3 read is exactly the read of the file. For every dataset whose chunks
are stored in at least one byte, every selection and destination, in debug and release builds. -/
theorem C19_honest {p : Profile} {io : Io} {file : List Byte} {ds : Dataset} {ext : Extents}
    {sort sort' : List GItem → List GItem} {server : Server}
    {complete : List Request → List Request} (hdet : AddrDet ds)
    (hpos : ∀ c ∈ ds.chunks, 0 < c.size ∧ c.addr + c.size < W) (hlen : file.length < 2 ^ 63)
    (hf : io.file = some file) (hsrv : Truthful file server)
    (hsort : ∀ l, SortedByAddr l (sort l)) (hsort' : ∀ l, SortedByAddr l (sort' l))
    (hcomp : ∀ l, (complete l).Perm l) (dst : List Byte) (hW : dst.length < W) (n : Nat)
    (hok : (s3ReadTo p io.inflate ds sort server complete ext dst).1 = ok n) :
    directReadTo p io ds sort' ext dst =
      s3ReadTo p io.inflate ds sort server complete ext dst := by
  obtain ⟨csz, vsz, items, h1, h2, h3, h4⟩ := s3ReadTo_inv hok
  obtain ⟨reqs, -, -, q1, q2, -⟩ := s3_agree (sort' := sort') (io := io) (dst := dst) hdet hpos hlen hf
    hsrv (fun l => (hsort l).1) (fun l => (hsort' l).1) hcomp h1 h2 h3 h4 hW
  exact Prod.ext (((q1 n).1 hok).2.trans hok.symm) (q2 n hok).symm

theorem fetch_onlyUsable {p : Profile} {server : Server} {r : Request} {body : List Byte}
    (hr : ReqOk' r) (h : fetch p server r = ok body) : fetch p (onlyUsable server) r = ok body := by
  have hlt := hr.start_lt
  obtain ⟨s, h1, h2, h3⟩ := (fetch_iff hr).1 h
  refine (fetch_iff hr).2 ⟨s, ?_, h2, h3⟩
  unfold onlyUsable
  rw [h1]
  simp only
  rw [if_pos ⟨h2, by omega⟩]

/-- C19, the other half: a successful read did not use a single bad answer. Turn every answer that is
not usable - any status but `206` and `200`, a `200` for a range that does not begin at 0, fewer bytes
than asked for - into a transport error: the read succeeds just the same. So a request whose answer is
not usable fails the read. For every dataset whose chunks are stored in at least one byte, every
selection, destination and server (which may make up bytes here), in debug and release builds. -/
theorem C19_usable {p : Profile} {inflate : List Byte → Option (List Byte)} {ds : Dataset}
    {ext : Extents} {sort : List GItem → List GItem} {server : Server}
    {complete : List Request → List Request}
    (hpos : ∀ c ∈ ds.chunks, 0 < c.size ∧ c.addr + c.size < W)
    (hsort : ∀ l, SortedByAddr l (sort l)) (hcomp : ∀ l, (complete l).Perm l) (dst : List Byte)
    (n : Nat) (hok : (s3ReadTo p inflate ds sort server complete ext dst).1 = ok n) :
    s3ReadTo p inflate ds sort (onlyUsable server) complete ext dst =
      s3ReadTo p inflate ds sort server complete ext dst := by
  unfold s3ReadTo at hok ⊢
  split at hok
  · rename_i csz vsz reqs hpre
    have hpre' := hpre
    unfold s3Prelude Dataset.groupChunkSlices at hpre'
    obtain ⟨_, -, hpre'⟩ := bind_eq_ok.1 hpre'
    obtain ⟨_, -, hpre'⟩ := bind_eq_ok.1 hpre'
    obtain ⟨_, -, hpre'⟩ := bind_eq_ok.1 hpre'
    obtain ⟨groups, hg, hpre'⟩ := bind_eq_ok.1 hpre'
    obtain ⟨gs, hgu, hg⟩ := bind_eq_ok.1 hg
    obtain rfl := Outcome.ok.inj hg
    obtain ⟨rs, hreqs, hpre'⟩ := bind_eq_ok.1 hpre'
    have hrs : rs = reqs := (Prod.mk.inj (Prod.mk.inj (Outcome.ok.inj hpre')).2).2
    subst hrs
    have hmem : ∀ g ∈ sort gs, g.chunk ∈ ds.chunks := by
      intro g hg
      have hg := (hsort gs).1.mem_iff.2 hg
      unfold Dataset.groupUnsorted at hgu
      obtain ⟨t, ht, hgu⟩ := bind_eq_ok.1 hgu
      obtain ⟨l, hl, hgu⟩ := bind_eq_ok.1 hgu
      obtain ⟨_, -, hgu⟩ := bind_eq_ok.1 hgu
      obtain rfl := Outcome.ok.inj hgu
      exact groupScan_mem ht hl g hg
    obtain ⟨rs', h1, hinv⟩ := groupRequests_ok (p := p) (gs := sort gs)
      (fun g hg => (hpos _ (hmem g hg)).2)
    rw [hreqs] at h1
    obtain rfl := Outcome.ok.inj h1
    have hrok : ∀ r ∈ rs, ReqOk' r := by
      intro r hr
      refine ⟨hinv.good r hr, fun cs hcs => ?_, ?_⟩
      · obtain ⟨g3, hg3, e3⟩ := hinv.mem r hr cs hcs
        rw [← e3]; exact (hpos _ (hmem g3 hg3)).1
      · obtain ⟨init, c, q1, q2⟩ := (hinv.good r hr).last
        obtain ⟨g3, hg3, e3⟩ := hinv.mem r hr c (by rw [q1]; simp)
        rw [q2, ← e3]
        exact (hpos _ (hmem g3 hg3)).2
    simp only
    obtain ⟨_, h4, -⟩ := bind_eq_ok.1 hok
    have h5 := loop_fst_ok h4
    have hsteps : ∀ (ops : List S3Op), (∀ r, S3Op.recv r ∈ ops → ReqOk' r) → ∀ st st',
        ops.foldlM (s3Step p inflate ds csz server) st = ok st' →
        ops.foldlM (s3Step p inflate ds csz (onlyUsable server)) st = ok st' := by
      intro ops
      induction ops with
      | nil => intro _ st st' h; exact h
      | cons o ops ih =>
        intro hr st st' h
        rw [List.foldlM_cons] at h ⊢
        obtain ⟨s1, h1, h2⟩ := bind_eq_ok.1 h
        have : s3Step p inflate ds csz (onlyUsable server) st o = ok s1 := by
          cases o with
          | recv r =>
            obtain ⟨body, hb, h3⟩ := bind_eq_ok.1 (show (fetch p server r >>= fun body =>
              ok { st with body := body, base := r.start }) = ok s1 from h1)
            show (fetch p (onlyUsable server) r >>= fun body =>
              ok { st with body := body, base := r.start }) = ok s1
            rw [fetch_onlyUsable (hr r (by simp)) hb, ok_bind]
            exact h3
          | decode c => exact h1
          | copy s => exact h1
        rw [this, ok_bind]
        exact ih (fun r h => hr r (by simp [h])) s1 st' h2
    have h6 := hsteps _ (fun r hr => by
      simp only [List.mem_flatMap, requestOps, List.mem_cons, S3Op.recv.injEq] at hr
      obtain ⟨r', hr', e⟩ := hr
      rcases e with rfl | ⟨cs, -, h'⟩
      · exact hrok r ((hcomp rs).mem_iff.1 hr')
      · simp at h') _ _ h5
    have e6 := loop_ok_iff.2 h6
    have e5 := loop_ok_iff.2 h5
    rw [e6, ← e5]
  · rename_i x hx
    obtain ⟨a, ha, -⟩ := bind_eq_ok.1 hok
    exact absurd ha (by intro e; exact hx _ _ _ e)

/-! ## Instances

`cut2015` with `ext2015` is a selection that is not good, into a buffer with room for all it copies:
the release readers succeed, and agree. -/

example : AddrDet cut2015 := by unfold AddrDet; decide +kernel
example : ∀ c ∈ cut2015.chunks, 0 < c.size ∧ c.addr + c.size < W := by decide +kernel

/-- The read succeeds, with the wrong 75 bytes and 20 more written after them. -/
example : (directReadTo .release io2015 cut2015 sortByAddr ext2015 (List.replicate 100 0)) =
    (ok 75, List.replicate 95 1 ++ List.replicate 5 0) := by decide +kernel

example (res : Outcome Nat × List Byte)
    (h : DirectReadToPar .release io2015 cut2015 sortByAddr ext2015 (List.replicate 100 0) res) :
    res = directReadTo .release io2015 cut2015 sortByAddr ext2015 (List.replicate 100 0) := by
  obtain ⟨h1, h2⟩ := C13 (file := List.replicate 400 1) (by unfold AddrDet; decide +kernel) rfl
    sortByAddr_ok sortByAddr_ok _ (by decide) res h
  exact h2 75 ((h1 75).2 (by decide +kernel))

example (complete : List Request → List Request) (hc : ∀ l, (complete l).Perm l) :
    s3ReadTo .release io2015.inflate cut2015 sortByAddr (honest (List.replicate 400 1)) complete ext2015
      (List.replicate 100 0) = (ok 75, List.replicate 95 1 ++ List.replicate 5 0) := by
  obtain ⟨h1, h2⟩ := C17 (p := .release) (io := io2015) (ds := cut2015) (ext := ext2015)
    (file := List.replicate 400 1) (sort := sortByAddr) (sort' := sortByAddr) (complete := complete)
    (by unfold AddrDet; decide +kernel) (by decide +kernel) (by rw [List.length_replicate]; decide) rfl (honest_serves _)
    sortByAddr_ok sortByAddr_ok hc (List.replicate 100 0) (by decide)
  have hd : (directReadTo .release io2015 cut2015 sortByAddr ext2015 (List.replicate 100 0)) =
    (ok 75, List.replicate 95 1 ++ List.replicate 5 0) := by decide +kernel
  rw [h2 75 ((h1 75).2 (by rw [hd])), hd]

/-- The stream of `not_C12`, 95 bytes, is the beginning of that destination. -/
example : directReadTo .release io2015 cut2015 sortByAddr ext2015 (List.replicate 100 0) =
    (ok 75, [List.replicate 95 1].flatten ++ (List.replicate 100 0).drop [List.replicate 95 1].flatten.length) :=
  (C12_stream (rt := .none) (file := List.replicate 400 1) (rd := ⟨100, ⟨335544, []⟩⟩)
    (by unfold AddrDet; decide +kernel) rfl sortByAddr_ok (by decide +kernel) (by simp)
    (by decide +kernel) _ (by decide) (by decide)).2 _ (by decide +kernel) (by decide)

end Hidefix.Props
