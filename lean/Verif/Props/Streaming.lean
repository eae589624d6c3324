import Verif.Props.Reading
import Verif.Proofs.Xdr
import Mathlib.Tactic.Ring

/-!
# Properties C12, C15, C16, C23: streams, XDR, agreement of the readers
-/

set_option autoImplicit false

namespace Hidefix.Props
open Hidefix Hidefix.Spec Hidefix.Proofs Outcome

/-! ## C12 -/

/-- C12 for the readers that fill a destination: `CacheReader` (after any history of reads),
`Direct::read_to` and every result of `Direct::read_to_par` succeed with the same number of bytes and
the same destination, or all fail. For checked reads (`Spec.Checked`); missing: release builds with
selections that are not good, where `read_to_par` is undefined (`not_C14`). -/
theorem C12_partial {p : Profile} {io : Io} {file : List Byte} {ds : Dataset} {ext : Extents}
    {sort sort' : List GItem → List GItem} {rd : CacheReader} (hk : Checked p ds ext)
    (hdet : AddrDet ds) (hf : io.file = some file) (hsort : ∀ l, SortedByAddr l (sort l))
    (hsort' : ∀ l, SortedByAddr l (sort' l)) (hrd : CacheReader.withDataset p ds = ok rd)
    (hist : List (Extents × List Byte)) (dst : List Byte)
    (res : Outcome Nat × List Byte) (hres : DirectReadToPar p io ds sort ext dst res) :
    let cached := (afterReads p io file ds rd hist).readTo p io file ds ext dst
    let direct := directReadTo p io ds sort' ext dst
    (∀ n, cached.1 = ok n ↔ direct.1 = ok n) ∧ (∀ n, direct.1 = ok n ↔ res.1 = ok n) ∧
    (∀ n, direct.1 = ok n → cached.2.1 = direct.2 ∧ res.2 = direct.2) := by
  intro cached direct
  obtain ⟨e1, e2⟩ := cache_read (io := io) (file := file) hdet hrd hist ext dst
  obtain ⟨-, hc, -⟩ := withDataset_inv (io := io) (file := file) hrd
  obtain ⟨q1, q2⟩ := C13_partial hk hdet hf hsort hsort' dst res hres
  have hcd : (∀ n, cached.1 = ok n ↔ direct.1 = ok n) ∧
      (∀ n, direct.1 = ok n → cached.2.1 = direct.2) := by
    by_cases hs : ∃ vsz items, reqBytes p ds ext = ok vsz ∧
        ds.chunkSlices p ext = ok ⟨items, ok ()⟩ ∧ vsz ≤ dst.length
    · obtain ⟨vsz, items, h2, h3, h4⟩ := hs
      have hS := checked_sliced hk hc h2 h3
      obtain ⟨d1, d2⟩ := directReadTo_iff hdet (fun l => (hsort' l).1) hc hf hS h4
      refine ⟨fun n => ?_, fun n hn => ?_⟩
      · rw [d1 n]
        simp only [cached]
        rw [e1, nocacheReadTo_iff hS h4]
      · have hr := ((d1 n).1 hn).2
        simp only [cached, direct]
        rw [e2, d2 hr, nocacheReadTo_dst hS h4 hr]
    · have k1 : ∀ n, ¬ cached.1 = ok n := by
        intro n hok
        simp only [cached] at hok
        rw [e1] at hok
        obtain ⟨vsz, h2, items, h3⟩ := nocacheReadTo_inv hok
        exact hs ⟨vsz, items, h2, h3, nocacheReadTo_fits h2 hok⟩
      have k2 : ∀ n, ¬ direct.1 = ok n := by
        intro n hok
        obtain ⟨vsz, h2, items, h3⟩ := directReadTo_inv hok
        exact hs ⟨vsz, items, h2, h3, directReadTo_fits h2 hok⟩
      exact ⟨fun n => ⟨fun h => absurd h (k1 n), fun h => absurd h (k2 n)⟩,
        fun n h => absurd h (k2 n)⟩
  exact ⟨hcd.1, fun n => (q1 n).symm, fun n hn => ⟨hcd.2 n hn, q2 n ((q1 n).2 hn)⟩⟩

theorem streamSlices_inv {p : Profile} {ds : Dataset} {ext : Extents} {l : List BSlice}
    (h : streamSlices p ds ext = ok l) : ∃ items, ds.chunkSlices p ext = ok ⟨items, ok ()⟩ := by
  unfold streamSlices at h
  obtain ⟨⟨items, e⟩, h1, h⟩ := bind_eq_ok.1 h
  obtain ⟨_, -, h⟩ := bind_eq_ok.1 h
  obtain ⟨u, h2, -⟩ := bind_eq_ok.1 h
  simp only at h2
  subst h2
  exact ⟨items, h1⟩

/-- C12 for the stream: it ends without error exactly when the direct read succeeds, and then its
items, concatenated, are what the direct read put at the start of the destination. Same restriction
as `C12_partial`; the size of the selection `vsz` must fit 64 bits and the destination. -/
theorem C12_stream_partial {p : Profile} {rt : Rt} {io : Io} {file : List Byte} {ds : Dataset}
    {ext : Extents} {sort : List GItem → List GItem} {rd : CacheReader} {vsz : Nat}
    (hk : Checked p ds ext) (hdet : AddrDet ds) (hf : io.file = some file)
    (hsort : ∀ l, SortedByAddr l (sort l)) (hrd : CacheReader.withDataset p ds = ok rd)
    (hrt : rt ≠ .currentThread) (hv : reqBytes p ds ext = ok vsz) (dst : List Byte)
    (hd : vsz ≤ dst.length) :
    ((∃ n, (directReadTo p io ds sort ext dst).1 = ok n) ↔
      ∃ items, streamBytes p rt io ds ext = ok ⟨items, ok ()⟩) ∧
    ∀ items, streamBytes p rt io ds ext = ok ⟨items, ok ()⟩ →
      directReadTo p io ds sort ext dst =
        (ok vsz, items.flatten ++ dst.drop items.flatten.length) := by
  obtain ⟨-, hc, -, hpos, -⟩ := withDataset_inv (io := io) (file := file) hrd
  by_cases hs : ∃ its, ds.chunkSlices p ext = ok ⟨its, ok ()⟩
  · obtain ⟨its, h3⟩ := hs
    have hS := checked_sliced hk hc hv h3
    obtain ⟨d1, d2⟩ := directReadTo_iff hdet (fun l => (hsort l).1) hc hf hS hd
    obtain ⟨⟨titems, tend⟩, t1, t2, t3, -⟩ := streamBytes_spec hdet hf hc hpos hS hrt
    refine ⟨⟨?_, ?_⟩, ?_⟩
    · rintro ⟨n, hn⟩
      have := t2.2 ((d1 n).1 hn).2
      simp only at this
      subst this
      exact ⟨_, t1⟩
    · rintro ⟨items, h⟩
      rw [t1] at h
      obtain ⟨rfl, rfl⟩ := Trace.mk.inj (Outcome.ok.inj h)
      exact ⟨vsz, (d1 vsz).2 ⟨rfl, t2.1 rfl⟩⟩
    · intro items h
      rw [t1] at h
      obtain ⟨rfl, rfl⟩ := Trace.mk.inj (Outcome.ok.inj h)
      have e := t3 rfl
      simp only at e
      rw [d2 (t2.1 rfl), blit_zero, e, List.flatMap_def]
  · have k1 : ∀ items, ¬ streamBytes p rt io ds ext = ok ⟨items, ok ()⟩ := by
      intro items h
      unfold streamBytes at h
      obtain ⟨_, -, h⟩ := bind_eq_ok.1 h
      obtain ⟨_, h1, -⟩ := bind_eq_ok.1 h
      exact hs (streamSlices_inv h1)
    refine ⟨⟨?_, ?_⟩, fun items h => absurd h (k1 items)⟩
    · rintro ⟨n, hn⟩
      obtain ⟨_, -, items, h⟩ := directReadTo_inv hn
      exact absurd ⟨items, h⟩ hs
    · rintro ⟨items, h⟩; exact absurd h (k1 items)

/-- In release builds the readers can disagree: on `cut2015` (selection `ext2015`, 75 elements, in
bounds) the stream yields 95 bytes without any error. -/
theorem not_C12 : WF .release cut2015 ∧
    (∃ items, streamBytes .release .none io2015 cut2015 ext2015 = ok ⟨items, ok ()⟩ ∧
      items.flatten.length = 95) ∧
    reqBytes .release cut2015 ext2015 = ok 75 ∧
    ∀ rd, CacheReader.withDataset .release cut2015 = ok rd →
      ∀ n, (rd.readTo .release io2015 ((List.replicate 400 1)) cut2015 ext2015
        (List.replicate 75 0)).1 ≠ ok n := by
  refine ⟨cut2015_wf _, ?_, by decide +kernel, ?_⟩
  · refine ⟨[List.replicate 95 1], by decide +kernel, by decide⟩
  · intro rd hrd n
    have : CacheReader.withDataset .release cut2015 = ok ⟨100, ⟨335544, []⟩⟩ := by decide +kernel
    rw [this] at hrd
    obtain rfl := Outcome.ok.inj hrd
    have : (CacheReader.readTo .release io2015 (List.replicate 400 1) cut2015 ⟨100, ⟨335544, []⟩⟩
      ext2015 (List.replicate 75 0)).1 = .panic .bounds := by decide +kernel
    rw [this]; simp

example (p : Profile) (rd : CacheReader) (hrd : CacheReader.withDataset p Demo.ds = ok rd)
    (res : Outcome Nat × List Byte)
    (h : DirectReadToPar p Demo.io Demo.ds sortByAddr Demo.ext (List.replicate 12 0) res) :
    (rd.readTo p Demo.io Demo.file Demo.ds Demo.ext (List.replicate 12 0)).2.1 = res.2 := by
  have := C12_partial (file := Demo.file) (Demo_checked p) Demo.addr rfl sortByAddr_ok sortByAddr_ok
    hrd [] _ res h
  obtain ⟨-, -, h3⟩ := this
  obtain ⟨h4, h5⟩ := h3 12 (by
    rw [C01_direct_partial (Demo.setup p) Demo.good sortByAddr_ok (by decide)]; rfl)
  exact h4.trans h5.symm

/-! ## C15 -/

/-- C15: the stream's items, concatenated, are the stored bytes of the selection in row-major order
(in the byte order they are stored in), and the stream ends without error. Restricted to the
selections of `Spec.Good` (the claim is false for others, see `not_C12`); not inside a
current-thread runtime (see `C15_current_thread`). -/
theorem C15_partial {p : Profile} {rt : Rt} {io : Io} {file : List Byte} {ds : Dataset}
    {A : List Nat → List Byte} {ext : Extents} {start count : List Nat}
    (h : Setup p io file ds A ext start count) (hg : Good p ds start count)
    (hrt : rt ≠ .currentThread) :
    ∃ items, streamBytes p rt io ds ext = ok ⟨items, ok ()⟩ ∧
      items.flatten = selected A start count := by
  obtain ⟨items, h1, -, h3, h4, h5⟩ := setup_core h hg
  obtain ⟨⟨titems, tend⟩, t1, t2, t3, -⟩ :=
    streamBytes_spec h.addr h.opened h3 (chunkBytes_pos h.wf h.sizes) h1 hrt
  have e := t2.2 h4
  simp only at e
  subst e
  refine ⟨titems, t1, ?_⟩
  have := t3 rfl
  simp only at this
  rw [this, ← h5, List.flatMap_def]

/-- If a file is damaged so that some chunks can no longer be read and decoded, while those that can
still decode to what they did, everything the stream yields before it fails is a prefix of the
selection's bytes. Same restriction as `C15_partial`. -/
theorem C15_prefix_partial {p : Profile} {rt : Rt} {io io' : Io} {file file' : List Byte}
    {ds : Dataset} {A : List Nat → List Byte} {ext : Extents} {start count : List Nat}
    (h : Setup p io file ds A ext start count) (hg : Good p ds start count)
    (hrt : rt ≠ .currentThread) (hf : io'.file = some file')
    (hsame : ∀ c ∈ ds.chunks, ∀ v,
      readChunk p io' file' c.addr c.size (ds.chunkShape.prod * ds.dsize) ds.dsize ds.gzip.isSome
        ds.shuffle = ok v →
      readChunk p io file c.addr c.size (ds.chunkShape.prod * ds.dsize) ds.dsize ds.gzip.isSome
        ds.shuffle = ok v) :
    ∃ items ending, streamBytes p rt io' ds ext = ok ⟨items, ending⟩ ∧
      items.flatten <+: selected A start count := by
  obtain ⟨items, h1, -, h3, h4, h5⟩ := setup_core h hg
  have hs := streamRun_spec (p := p) (rt := rt) (io := io') (ds := ds)
    (chunkSz := ds.chunkShape.prod * ds.dsize)
    (cap := max (33554432 / (ds.chunkShape.prod * ds.dsize)) 1) (x := 1) (conv := ok) h.addr hf
    (by omega) (fun it hit => Nat.le_of_lt (h1.le it hit)) (by rw [Nat.mul_one]; exact h1.lt) h1.mem
  have hD : streamD p rt io' file' ds (ds.chunkShape.prod * ds.dsize) ok =
      rawD p io' file' ds (ds.chunkShape.prod * ds.dsize) := by
    funext c
    rw [streamD_eq hrt]; exact Outcome.bind_pure _
  simp only [Nat.mul_one, hD] at hs
  obtain ⟨-, -, pre, post, e1, e2, e3, -⟩ := hs
  have hrun : streamBytes p rt io' ds ext = ok (streamRun p rt io' ds (ds.chunkShape.prod * ds.dsize)
      (max (33554432 / (ds.chunkShape.prod * ds.dsize)) 1) (ok 1) ok (items.map (bOf ds.dsize))) := by
    unfold streamBytes
    rw [h3, ok_bind, streamSlices_ok h1, ok_bind, lruCap_ok (chunkBytes_pos h.wf h.sizes), ok_bind]
  revert e3 hrun
  generalize streamRun p rt io' ds (ds.chunkShape.prod * ds.dsize) _ _ _ _ = t
  obtain ⟨ti, te⟩ := t
  intro e3 hrun
  refine ⟨ti, te, hrun, ?_⟩
  · simp only at e3
    rw [e3, ← h5, e1, List.flatMap_append]
    have : (pre.map (bytesOf (rawD p io' file' ds (ds.chunkShape.prod * ds.dsize)) ds.dsize)).flatten =
        pre.flatMap (bytesOf (rawD p io file ds (ds.chunkShape.prod * ds.dsize)) ds.dsize) := by
      rw [List.flatMap_def]
      congr 1
      refine List.map_congr_left fun it hit => ?_
      obtain ⟨v, hv, -⟩ := e2 it hit
      have hm := h1.mem it (by rw [e1]; simp [hit])
      unfold bytesOf
      rw [hv, show rawD p io file ds (ds.chunkShape.prod * ds.dsize) it.chunk = ok v from hsame _ hm v hv]
    rw [this]
    exact List.prefix_append _ _

/-- Inside a current-thread runtime every stream of a non-empty selection of a readable file
panics at the first item. -/
theorem C15_current_thread {p : Profile} {io : Io} {file : List Byte} {ds : Dataset}
    {A : List Nat → List Byte} {ext : Extents} {start count : List Nat}
    (h : Setup p io file ds A ext start count) (hg : Good p ds start count) :
    ∃ f, streamBytes p .currentThread io ds ext = ok ⟨[], .panic f⟩ := by
  obtain ⟨items, h1, h2, h3, h4, h5⟩ := setup_core h hg
  have hs := streamRun_spec (p := p) (rt := .currentThread) (io := io) (ds := ds)
    (chunkSz := ds.chunkShape.prod * ds.dsize)
    (cap := max (33554432 / (ds.chunkShape.prod * ds.dsize)) 1) (x := 1) (conv := ok) h.addr h.opened
    (by omega) (fun it hit => Nat.le_of_lt (h1.le it hit)) (by rw [Nat.mul_one]; exact h1.lt) h1.mem
  have hD : ∀ c ∈ ds.chunks, streamD p .currentThread io file ds (ds.chunkShape.prod * ds.dsize) ok c =
      .panic .unimplemented := by
    intro c hc
    obtain ⟨k1, -⟩ := h.stores.chunk c hc
    have hf := h.sizes.file
    unfold streamD readChunkTokio allocOk readRaw
    rw [if_pos (by omega), ok_bind, if_neg (by omega), if_pos k1, ok_bind]
    rfl
  obtain ⟨-, -, pre, post, e1, e2, e3, e4⟩ := hs
  have hpre : pre = [] := by
    cases pre with
    | nil => rfl
    | cons it its =>
      obtain ⟨v, hv, -⟩ := e2 it (by simp)
      rw [hD _ (h1.mem it (by rw [e1]; simp))] at hv
      simp at hv
  subst hpre
  have hpost : post ≠ [] := by
    intro hp
    rw [hp] at e1
    simp only [List.append_nil] at e1
    subst e1
    have hl := h2.length_eq
    rw [rowMajor_length start count (by rw [h.inb.1, h.inb.2.1])] at hl
    simp only [expand, List.flatMap_nil, List.length_nil] at hl
    have : 0 < count.prod := by
      refine prod_pos fun c hc => ?_
      obtain ⟨i, hi, rfl⟩ := List.getElem_of_mem hc
      have q1 := h.inb.1
      have q2 := h.inb.2.1
      have := h.inb.2.2 ((start.zip (count.zip ds.shape))[i]'(by
        simp only [List.length_zip]; omega)) (List.getElem_mem _)
      simp only [List.getElem_zip] at this
      exact this.1
    omega
  obtain ⟨it, its, rfl, -, e5⟩ := e4 hpost
  refine ⟨.unimplemented, ?_⟩
  unfold streamBytes
  rw [h3, ok_bind, streamSlices_ok h1, ok_bind, lruCap_ok (chunkBytes_pos h.wf h.sizes), ok_bind]
  have hm := h1.mem it (by rw [e1]; simp)
  have hw := h1.lt it (by rw [e1]; simp)
  have hl := h1.le it (by rw [e1]; simp)
  have hlm : it.start * ds.dsize ≤ it.stop * ds.dsize := Nat.mul_le_mul_right _ (Nat.le_of_lt hl)
  have e6 : plainStep p (streamD p .currentThread io file ds (ds.chunkShape.prod * ds.dsize) ok) (ok 1)
      [] (it.chunk, bOf ds.dsize it) = .panic .unimplemented := by
    unfold plainStep
    rw [hD _ hm]
    simp only [bOf, ok_bind]
    rw [mul64_of_lt (by omega), ok_bind, mul64_of_lt (by omega), ok_bind]
    simp [hlm]
  rw [e6, panic_bind] at e5
  revert e3 e5
  generalize streamRun p .currentThread io ds (ds.chunkShape.prod * ds.dsize) _ _ _ _ = t
  obtain ⟨ti, te⟩ := t
  rintro e3 e5
  simp only [List.map_nil] at e3 e5
  subst e3; subst e5
  rfl

example (p : Profile) : ∃ items, streamBytes p .multiThread Demo.io Demo.ds Demo.ext =
      ok ⟨items, ok ()⟩ ∧ items.flatten = [5, 101, 6, 101, 7, 101, 9, 102, 10, 102, 11, 102] :=
  C15_partial (Demo.setup p) Demo.good (by decide)

example (p : Profile) : ∃ f, streamBytes p .currentThread Demo.io Demo.ds Demo.ext =
    ok ⟨[], .panic f⟩ := C15_current_thread (Demo.setup p) Demo.good

/-- The doc comment "Always in Big Endian" is wrong: the bytes are those stored, here little-endian
(the first element is 25861 = 101·256 + 5). -/
example (p : Profile) : ∃ items, streamBytes p .none Demo.io Demo.ds Demo.ext =
      ok ⟨items, ok ()⟩ ∧ items.flatten.take 2 = [5, 101] := by
  obtain ⟨items, h1, h2⟩ := C15_partial (rt := .none) (Demo.setup p) Demo.good (by decide)
  refine ⟨items, h1, ?_⟩
  rw [h2]; decide

/-! ## C23 -/

theorem high_word {n : Nat} (h : ¬ 2 * n < 65536) :
    ¬ 2 * (255 * 16777216 + (255 * 65536 + n)) < 4294967296 := by omega

/-- C23: every 8- or 16-bit integer is encoded in 4 bytes that denote, big-endian, the same
number. -/
theorem C23 {h : Host} {o : ByteOrder} (ho : o ≠ .Unknown) (signed : Bool) (k : Nat)
    (hk : k = 1 ∨ k = 2) (es : List (List Byte)) (hes : ∀ e ∈ es, e.length = k) :
    ∃ out : List (List Byte),
      xdr h es.flatten (if signed then .int k else .uint k) o = ok out.flatten ∧
      List.Forall₂ (fun e w => w.length = 4 ∧ intVal signed .BE w = intVal signed o e) es out := by
  have key : ∀ e : List Byte, e.length = k →
      (xdrElem (if signed then .int k else .uint k) o e).length = 4 ∧
      intVal signed .BE (xdrElem (if signed then .int k else .uint k) o e) = intVal signed o e := by
    intro e he
    have hm := msFirst_length o e
    cases signed with
    | false =>
      simp only [Bool.false_eq_true, if_false, intVal, xdrElem]
      refine ⟨by rw [List.length_append, List.length_replicate, hm]; omega, ?_⟩
      have : ∀ n (l : List Byte), uval (List.replicate n 0 ++ l) = uval l := by
        intro n l
        induction n with
        | zero => rfl
        | succ n ih => rw [List.replicate_succ, List.cons_append, uval, ih]; simp
      rw [show msFirst ByteOrder.BE (List.replicate (4 - e.length) 0 ++ msFirst o e) =
        List.replicate (4 - e.length) 0 ++ msFirst o e from rfl, this]
    | true =>
      simp only [if_true, xdrElem]
      refine ⟨by rw [List.length_append, List.length_replicate, hm]; omega, ?_⟩
      rw [show ∀ l, intVal true .BE l = sval l from fun _ => rfl,
        show intVal true o e = sval (msFirst o e) from rfl]
      rw [he] at hm
      rcases hk with rfl | rfl
      · obtain ⟨a, ha⟩ := length_one hm
        have := a.toNat_lt
        rw [ha, he]
        by_cases hlt : 2 * a.toNat < 256
        · have hs : sval [a] = a.toNat := by simp [sval, uval, hlt]
          rw [hs, if_neg (by omega)]
          have h4 : sval [0, 0, 0, a] = a.toNat := by
            have : 2 * a.toNat < 4294967296 := by omega
            simp [sval, uval, this]
          exact h4
        · have hs : sval [a] = a.toNat - 256 := by simp [sval, uval, hlt]
          rw [hs, if_pos (by omega)]
          have h4 : sval [255, 255, 255, a] = a.toNat - 256 := by
            have : ¬ 2 * (255 * 16777216 + (255 * 65536 + (255 * 256 + a.toNat))) < 4294967296 := by
              omega
            have h5 : uval [255, 255, 255, a] = 255 * 16777216 + (255 * 65536 + (255 * 256 + a.toNat)) := by
              simp [uval]
            have h6 : (256 : Nat) ^ [255, 255, 255, a].length = 4294967296 := by simp
            have h7 : (256 : Int) ^ [255, 255, 255, a].length = 4294967296 := by simp
            unfold sval
            rw [h5, h6, h7, if_neg this]
            omega
          exact h4
      · obtain ⟨a, b, ha⟩ := length_two hm
        have h1 := a.toNat_lt
        have h2 := b.toNat_lt
        rw [ha, he]
        by_cases hlt : 2 * (a.toNat * 256 + b.toNat) < 65536
        · have hs : sval [a, b] = (a.toNat * 256 + b.toNat : Nat) := by simp [sval, uval, hlt]
          rw [hs, if_neg (by omega)]
          have h4 : sval [0, 0, a, b] = (a.toNat * 256 + b.toNat : Nat) := by
            have : 2 * (a.toNat * 256 + b.toNat) < 4294967296 := by omega
            simp [sval, uval, this]
          exact h4
        · have hs : sval [a, b] = (a.toNat * 256 + b.toNat : Nat) - 65536 := by
            simp [sval, uval, hlt]
          rw [hs, if_pos (by omega)]
          have h4 : sval [255, 255, a, b] = (a.toNat * 256 + b.toNat : Nat) - 65536 := by
            have h5 : uval [255, 255, a, b] =
                255 * 16777216 + (255 * 65536 + (a.toNat * 256 + b.toNat)) := by simp [uval]
            have h6 : (256 : Nat) ^ [255, 255, a, b].length = 4294967296 := by simp
            have h7 : (256 : Int) ^ [255, 255, a, b].length = 4294967296 := by simp
            have h8 : ¬ 2 * (255 * 16777216 + (255 * 65536 + (a.toNat * 256 + b.toNat))) < 4294967296 :=
              high_word hlt
            unfold sval
            rw [h5, h6, h7, if_neg h8]
            clear h5 h6 h7 h8 hs
            push_cast
            ring
          exact h4
  refine ⟨es.map (xdrElem (if signed then .int k else .uint k) o), xdr_eq ?_ (.inl ho) ?_, ?_⟩
  · cases signed <;> rcases hk with rfl | rfl <;> simp [XdrType]
  · intro e he
    rw [hes e he]
    cases signed <;> rfl
  · rw [List.forall₂_map_right_iff, List.forall₂_same]
    intro e he
    exact key e (hes e he)

/-- C23: a buffer that is not made of whole elements is refused. -/
theorem C23_length {h : Host} {o : ByteOrder} (signed : Bool) {src : List Byte}
    (hl : src.length % 2 ≠ 0) :
    xdr h src (if signed then .int 2 else .uint 2) o = err .cast := by
  cases signed <;> simp [xdr, xdrCastSlice, castOk, ensure, Prim.size, hl]

/-- -2 stored little-endian in 16 bits. -/
example (h : Host) : xdr h [254, 255, 3, 0] (.int 2) .LE = ok [255, 255, 255, 254, 0, 0, 0, 3] := by
  cases h <;> decide +kernel

/-! ## C16 -/

/-- C16: the XDR stream's items, concatenated, are the XDR encodings of the selected elements in
row-major order. Restricted to the selections of `Spec.Good`; byte order known where it matters. -/
theorem C16_partial {p : Profile} {rt : Rt} {hst : Host} {io : Io} {file : List Byte} {ds : Dataset}
    {A : List Nat → List Byte} {ext : Extents} {start count : List Nat}
    (h : Setup p io file ds A ext start count) (hg : Good p ds start count)
    (hrt : rt ≠ .currentThread) (ht : XdrType ds.dtype)
    (ho : ds.order ≠ .Unknown ∨ 4 ≤ ds.dsize ∨ ∃ n, ds.dtype = .custom n)
    (hbig : ds.chunkShape.prod * 4 < 2 ^ 63) :
    ∃ items, streamXdr p rt hst io ds ext = ok ⟨items, ok ()⟩ ∧
      items.flatten = (rowMajor start count).flatMap fun x => xdrElem ds.dtype ds.order (A x) := by
  have hdt : ds.dtype.dsize = ds.dsize := by
    have := h.wf.built
    unfold Dataset.new at this
    obtain ⟨_, -, this⟩ := bind_eq_ok.1 this
    obtain ⟨_, -, this⟩ := bind_eq_ok.1 this
    obtain ⟨_, -, this⟩ := bind_eq_ok.1 this
    obtain ⟨_, -, this⟩ := bind_eq_ok.1 this
    obtain ⟨_, -, this⟩ := bind_eq_ok.1 this
    have := congrArg Dataset.dsize (Outcome.ok.inj this)
    exact this
  obtain ⟨items, h1, h2, h3, h4, -⟩ := setup_core h hg
  obtain ⟨items', c1, -, c3⟩ := chunkSlices_good h.wf h.sel h.inb hg
  obtain rfl : items' = items := by
    have := h1.slices
    rw [c1] at this
    exact congrArg Trace.items (Outcome.ok.inj this)
  obtain ⟨x, hx, hlen⟩ := xdrFactor_spec ht
  rw [hdt] at hlen
  have hx4 : ds.dsize * x ≤ ds.dsize ∨ ds.dsize * x ≤ 4 := by
    rw [← hdt]
    unfold xdrFactor at hx
    split at hx
    · obtain rfl := Outcome.ok.inj hx; omega
    · split at hx
      · split at hx
        · simp at hx
        · obtain rfl := Outcome.ok.inj hx
          right; exact Nat.mul_div_le 4 _
      · obtain rfl := Outcome.ok.inj hx; omega
  have hlt : ∀ it ∈ items', it.stop * (ds.dsize * x) < W := by
    intro it hit
    have k1 := h1.lt it hit
    rcases hx4 with hx4 | hx4
    · exact Nat.lt_of_le_of_lt (Nat.mul_le_mul_left _ hx4) k1
    · have k2 := (c3 it hit).2.1
      have := Nat.mul_le_mul k2 hx4
      have : (2 : Nat) ^ 63 < W := by decide
      omega
  obtain ⟨⟨titems, tend⟩, t1, t2, t3, -⟩ := streamXdr_spec (hst := hst) h.addr h.opened h3
    (chunkBytes_pos h.wf h.sizes) h1 hrt hx hlt
  -- every chunk decodes and converts, element by element
  have hD : ∀ c ∈ ds.chunks, ∃ es : List (List Byte),
      (rawD p io file ds (ds.chunkShape.prod * ds.dsize) c >>= fun b => xdr hst b ds.dtype ds.order) =
        ok (es.map (xdrElem ds.dtype ds.order)).flatten ∧ es.length = ds.chunkShape.prod ∧
      (∀ e ∈ es, e.length = ds.dsize) ∧
      ∀ y, InBox c.offset ds.chunkShape y → InBox (ds.shape.map fun _ => 0) ds.shape y →
        ∀ k, k = linear (List.zipWith (fun a b => a - b) y c.offset) ds.chunkShape →
          ∀ hk : k < es.length, es[k] = A y := by
    intro c hc
    obtain ⟨block, b1, b2, b3⟩ := rawD_stores (p := p) h.stores h.sizes hc
    obtain ⟨es, s1, s2, s3⟩ := exists_elems b2
    refine ⟨es, ?_, s1, s2, ?_⟩
    · rw [b1, ok_bind, ← s3]
      exact xdr_eq ht (by rw [hdt]; exact ho) (by rw [hdt]; exact s2)
    · intro y hy1 hy2 k hk hkl
      rw [← flatten_elem s2 hkl, s3]
      exact b3 y hy1 hy2 k hk
  have hel : ∀ es : List (List Byte), (∀ e ∈ es, e.length = ds.dsize) →
      ∀ e ∈ es.map (xdrElem ds.dtype ds.order), e.length = ds.dsize * x := by
    intro es hes e he
    obtain ⟨e', he', rfl⟩ := List.mem_map.1 he
    exact hlen _ _ (hes e' he')
  have hready : ∀ it ∈ items', Ready (fun c => rawD p io file ds (ds.chunkShape.prod * ds.dsize) c >>=
      fun b => xdr hst b ds.dtype ds.order) (ds.dsize * x) it.chunk it.stop := by
    intro it hit
    obtain ⟨es, s1, s2, s3, -⟩ := hD it.chunk (h1.mem it hit)
    refine ⟨_, s1, ?_⟩
    rw [flatten_length_const (hel es s3), List.length_map, s2]
    exact Nat.mul_le_mul_right _ (c3 it hit).2.1
  have e := t2.2 hready
  simp only at e
  subst e
  refine ⟨titems, t1, ?_⟩
  have e3 := t3 rfl
  simp only at e3
  rw [e3, ← List.flatMap_def, bytes_expand fun it hit => Nat.le_of_lt (h1.le it hit)]
  symm
  refine flatMap_forall₂ (R := fun y (ck : Chunk × Nat) => StoredAt ds y ck.1 ck.2 ∧
    ck.2 < ds.chunkShape.prod) ?_ ?_
  · have hin : ∀ ck ∈ expand items', ck.2 < ds.chunkShape.prod := by
      intro ck hck
      simp only [expand, List.mem_flatMap, List.mem_map, List.mem_range'_1] at hck
      obtain ⟨it, hit, k, hk, rfl⟩ := hck
      have := (c3 it hit).2.1
      simp only; omega
    rw [Enumerates] at h2
    revert h2 hin
    generalize rowMajor start count = xs
    generalize expand items' = cks
    intro h2 hin
    clear * - h2 hin
    induction h2 with
    | nil => exact .nil
    | cons hab _ ih =>
      refine .cons ⟨hab, hin _ (by simp)⟩ (ih fun ck hck => hin ck (by simp [hck]))
  · rintro y hy ⟨c, k⟩ ⟨⟨hc, hbox, hk⟩, hkl⟩
    simp only at hkl hk hbox
    obtain ⟨es, s1, s2, s3, s4⟩ := hD c hc
    simp only [s1, valOf]
    have hkl' : k < es.length := by rw [s2]; exact hkl
    rw [flatten_elem (hel es s3) (n := k) (by rw [List.length_map]; exact hkl'), List.getElem_map,
      s4 y hbox (inBox_shape h.inb (mem_rowMajor (by rw [h.inb.1, h.inb.2.1]) hy)) k hk hkl']

example (p : Profile) (h : Host) : ∃ items, streamXdr p .none h Demo.io Demo.ds Demo.ext =
      ok ⟨items, ok ()⟩ ∧ items.flatten = [0, 0, 101, 5, 0, 0, 101, 6, 0, 0, 101, 7,
        0, 0, 102, 9, 0, 0, 102, 10, 0, 0, 102, 11] :=
  C16_partial (Demo.setup p) Demo.good (by decide) (.inr (.inl rfl)) (.inl (by decide)) (by decide)

end Hidefix.Props
