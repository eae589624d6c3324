import Verif.Proofs.Frame
import Verif.Proofs.Snug
import Verif.Proofs.Final

/-!
# Readers: combined facts used by the properties
-/

set_option autoImplicit false

namespace Hidefix.Proofs
open Hidefix Hidefix.Spec Outcome

/-- A read after any history is a read without a cache. -/
theorem cache_read {p : Profile} {io : Io} {file : List Byte} {ds : Dataset} {rd : CacheReader}
    (hdet : AddrDet ds) (hrd : CacheReader.withDataset p ds = ok rd)
    (hist : List (Extents × List Byte)) (ext : Extents) (dst : List Byte) :
    ((afterReads p io file ds rd hist).readTo p io file ds ext dst).1 =
      (nocacheReadTo p io file ds rd.chunkSz ext dst).1 ∧
    ((afterReads p io file ds rd hist).readTo p io file ds ext dst).2.1 =
      (nocacheReadTo p io file ds rd.chunkSz ext dst).2 := by
  obtain ⟨-, -, -, -, hinv⟩ := withDataset_inv (io := io) (file := file) hrd
  obtain ⟨h1, h2⟩ := afterReads_inv hdet hist rd hinv
  have := readTo_sim hdet (afterReads p io file ds rd hist) (by rw [h1]; exact h2) ext dst
  rw [h1] at this
  exact ⟨this.1, this.2.1⟩

theorem noUb_mul (p : Profile) (a b : Nat) : NoUb (mul64 p a b) := (okp_mul64 _ _ _).noUb

theorem noUb_chunkBytes (p : Profile) (ds : Dataset) : NoUb (chunkBytes p ds) :=
  NoUb.bind (okp_product64 _ _).noUb fun _ => noUb_mul _ _ _

theorem noUb_mapM {α β : Type} {f : α → Outcome β} (hf : ∀ a, NoUb (f a)) (l : List α) :
    NoUb (l.mapM f) := by
  induction l with
  | nil => simp [NoUb]
  | cons a l ih =>
    rw [List.mapM_cons]
    exact (hf a).bind fun _ => ih.bind fun _ => by simp [NoUb]

theorem noUb_count (e : Extent) : NoUb e.countUnwrap := by
  unfold Extent.countUnwrap; split <;> simp [NoUb]

theorem noUb_canonicalise (x : Extents) (dims : List Nat) : NoUb (x.canonicalise dims) := by
  cases x with
  | all => simp [NoUb, Extents.canonicalise]
  | extent l => simp only [Extents.canonicalise]; split <;> simp [NoUb]

theorem noUb_getCounts (x : Extents) (dims : List Nat) : NoUb (x.getCounts dims) :=
  (noUb_canonicalise _ _).bind fun _ => noUb_mapM noUb_count _

theorem noUb_reqBytes (p : Profile) (ds : Dataset) (ext : Extents) : NoUb (reqBytes p ds ext) :=
  (noUb_getCounts _ _).bind fun _ => (okp_product64 _ _).noUb.bind fun _ => noUb_mul _ _ _

theorem okp_exceeds (p : Profile) (a b c : List Nat) : OkOrPanic (exceeds p a b c) := by
  induction a generalizing b c with
  | nil => exact okp_ok _
  | cons x a ih =>
    cases b with
    | nil => exact okp_ok _
    | cons y b =>
      cases c with
      | nil => exact okp_ok _
      | cons z c =>
        refine (okp_add64 _ _ _).bind fun l _ => ?_
        split
        · exact okp_ok _
        · exact ih _ _

theorem noUb_ensure (b : Bool) (e : Err) : NoUb (ensure b e) := by
  unfold ensure; split <;> simp [NoUb]

theorem noUb_sized (x : Extents) (dims : List Nat) : NoUb (x.getStartCountSized dims) :=
  NoUb.bind ((noUb_canonicalise _ _).bind fun _ => (noUb_mapM noUb_count _).bind fun _ => by
    simp [NoUb]) fun _ => (noUb_ensure _ _).bind fun _ => by simp [NoUb]

theorem okp_strengthReduce (l : List Nat) : OkOrPanic (strengthReduce l) := by
  unfold strengthReduce
  split <;> first | exact okp_ok _ | exact okp_panic _

theorem noUb_new (p : Profile) (ds : Dataset) (i c : List Nat) : NoUb (Slicer.new p ds i c) := by
  have key : ∀ stop : Nat, NoUb (do
      debugAssert p (i.length == ds.shape.length)
      debugAssert p (c.length == ds.shape.length)
      match p with
        | .debug => do
          let b ← exceeds p i c ds.shape
          debugAssert p (!b)
        | .release => ok ()
      let _ ← strengthReduce c
      ok { offset := 0, coords := ds.shape.map fun _ => 0, indices := i, counts := c,
           stop := stop : Slicer }) := by
    intro stop
    refine (okp_debugAssert _ _).noUb.bind fun _ => (okp_debugAssert _ _).noUb.bind fun _ => ?_
    cases p with
    | debug =>
      refine (okp_exceeds _ _ _ _).noUb.bind fun _ => (okp_debugAssert _ _).noUb.bind fun _ => ?_
      refine (okp_strengthReduce _).noUb.bind fun _ => ?_
      simp [NoUb]
    | release =>
      refine (okp_strengthReduce _).noUb.bind fun _ => ?_
      simp [NoUb]
  unfold Slicer.new
  by_cases h : ds.isScalar = true
  · simp only [h, if_true]
    exact NoUb.bind (okp_assertP _).noUb fun _ => key 1
  · simp only [h]
    exact NoUb.bind (okp_product64 _ _).noUb fun stop => key stop

theorem noUb_chunkSlicer (p : Profile) (ds : Dataset) (ext : Extents) :
    NoUb (ds.chunkSlicer p ext) := by
  unfold Dataset.chunkSlicer
  have := noUb_sized ext ds.shape
  cases h : ext.getStartCountSized ds.shape with
  | ok ic =>
    obtain ⟨i, c⟩ := ic
    simp only [ok_bind]
    refine (okp_exceeds _ _ _ _).noUb.bind fun _ => ?_
    split
    · simp [NoUb]
    · exact noUb_new _ _ _ _
  | err e => simp [NoUb]
  | «panic» e => simp [NoUb]
  | ub => exact absurd h this
  | diverge => simp [NoUb]

theorem noUb_trace (p : Profile) (ds : Dataset) (fuel : Nat) (s : Slicer) :
    NoUb (Slicer.trace p ds fuel s).ending := by
  induction fuel generalizing s with
  | zero => simp [NoUb, Slicer.trace]
  | succ fuel ih =>
    simp only [Slicer.trace]
    rcases okp_next p ds s with ⟨x, h⟩ | ⟨f, h⟩
    · rw [h]
      cases x with
      | none => simp [NoUb]
      | some x => exact ih _
    · rw [h]; simp [NoUb]

theorem okp_groupScan (p : Profile) (off : Nat) (l : List Item) : OkOrPanic (groupScan p off l) := by
  induction l generalizing off with
  | nil => exact okp_ok _
  | cons it l ih =>
    exact (okp_sub64 _ _ _).bind fun _ _ => (okp_add64 _ _ _).bind fun _ _ => (ih _).bind fun _ _ =>
      okp_ok _

theorem noUb_groups (p : Profile) (ds : Dataset) (ext : Extents) (sort : List GItem → List GItem) :
    NoUb (ds.groupChunkSlices p ext sort) := by
  unfold Dataset.groupChunkSlices Dataset.groupUnsorted Dataset.chunkSlices
  refine NoUb.bind ?_ fun _ => by simp [NoUb]
  rw [bind_assoc]
  refine (noUb_chunkSlicer _ _ _).bind fun s => ?_
  rw [ok_bind]
  exact (okp_groupScan _ _ _).noUb.bind fun l => NoUb.bind (noUb_trace _ _ _ _) fun _ => by
    simp [NoUb]

theorem noUb_parPrelude (p : Profile) (ds : Dataset) (sort : List GItem → List GItem) (ext : Extents)
    (n : Nat) : NoUb (parPrelude p ds sort ext n) :=
  (noUb_chunkBytes _ _).bind fun _ => (noUb_reqBytes _ _ _).bind fun _ =>
    (noUb_ensure _ _).bind fun _ => (noUb_groups _ _ _ _).bind fun _ => by simp [NoUb]

/-- One group, whatever its chunks are: it is never undefined behaviour, and its writes go where its
slices say. -/
theorem parGroup_writes {p : Profile} {io : Io} {ds : Dataset} {chunkSz n dstLen : Nat}
    {grp : List GItem} (ht : ∀ g ∈ grp, Tame ds.dsize n g) (hn : n ≤ dstLen) (hW : n < W) :
    (parGroup p io ds chunkSz dstLen grp).1 ≠ ub ∧
    ∀ w ∈ (parGroup p io ds chunkSz dstLen grp).2, ∃ g ∈ grp, w.off = g.current * ds.dsize ∧
      w.bytes.length ≤ (g.stop - g.start) * ds.dsize := by
  unfold parGroup
  split
  · simp
  · simp
  · rename_i file g gs _
    cases hr : readChunk p io file g.chunk.addr g.chunk.size chunkSz ds.dsize ds.gzip.isSome
      ds.shuffle with
    | ok v =>
      simp only
      rcases parLoop (p := p) (v := v) (g :: gs) [] ht hn hW with ⟨-, h⟩ | ⟨-, f, k, h⟩
      · rw [h]
        refine ⟨by simp, fun w hw => ?_⟩
        simp only [List.nil_append, List.mem_map] at hw
        obtain ⟨x, hx, rfl⟩ := hw
        exact ⟨x, hx, rfl, by simp only [part, List.length_take]; omega⟩
      · rw [h]
        refine ⟨by simp, fun w hw => ?_⟩
        simp only [List.nil_append, List.mem_map] at hw
        obtain ⟨x, hx, rfl⟩ := hw
        exact ⟨x, List.mem_of_mem_take hx, rfl, by simp only [part, List.length_take]; omega⟩
    | err e => simp
    | «panic» e => simp
    | ub => exact absurd hr (noUb_readChunk _ _ _ _ _ _ _ _ _)
    | diverge => simp

/-- What `read_to_par` does before it starts the groups. -/
theorem parPrelude_inv {p : Profile} {ds : Dataset} {sort : List GItem → List GItem} {ext : Extents}
    {n csz vsz : Nat} {groups : List (List GItem)}
    (h : parPrelude p ds sort ext n = ok (csz, vsz, groups)) :
    chunkBytes p ds = ok csz ∧ reqBytes p ds ext = ok vsz ∧ vsz ≤ n ∧
      ∃ l, ds.groupUnsorted p ext = ok l ∧ groups = chunkBy (sort l) := by
  unfold parPrelude at h
  obtain ⟨c, h1, h⟩ := bind_eq_ok.1 h
  obtain ⟨v, h2, h⟩ := bind_eq_ok.1 h
  obtain ⟨_, h3, h⟩ := bind_eq_ok.1 h
  obtain ⟨g, h4, h⟩ := bind_eq_ok.1 h
  obtain ⟨rfl, h5⟩ := Prod.mk.inj (Outcome.ok.inj h)
  obtain ⟨rfl, rfl⟩ := Prod.mk.inj h5
  unfold Dataset.groupChunkSlices at h4
  obtain ⟨l, h6, h4⟩ := bind_eq_ok.1 h4
  obtain rfl := Outcome.ok.inj h4
  refine ⟨h1, h2, ?_, l, h6, rfl⟩
  unfold ensure at h3
  by_cases hc : v ≤ n
  · exact hc
  · simp [hc] at h3

/-- Inversion of `groupUnsorted`. -/
theorem groupUnsorted_inv {p : Profile} {ds : Dataset} {ext : Extents} {l : List GItem}
    (h : ds.groupUnsorted p ext = ok l) :
    ∃ items, ds.chunkSlices p ext = ok ⟨items, ok ()⟩ ∧ groupScan p 0 items = ok l := by
  unfold Dataset.groupUnsorted at h
  obtain ⟨t, h1, h⟩ := bind_eq_ok.1 h
  obtain ⟨l', h2, h⟩ := bind_eq_ok.1 h
  obtain ⟨u, h3, h⟩ := bind_eq_ok.1 h
  obtain rfl := Outcome.ok.inj h
  obtain ⟨items, e⟩ := t
  simp only at h3
  subst h3
  exact ⟨items, h1, h2⟩

/-- The writes of the groups, over all schedules: inside the first `vsz` bytes, and writes of
different groups do not overlap. -/
theorem par_writes {p : Profile} {io : Io} {ds : Dataset} {sort : List GItem → List GItem}
    {ext : Extents} {items : List Item} {vsz csz n : Nat} (hsort : ∀ l : List GItem, l.Perm (sort l))
    (h : Sliced p ds ext items vsz) (hn : vsz ≤ n) :
    let runs := (chunkBy (sort (tile 0 items))).map (parGroup p io ds csz n)
    (∀ r ∈ runs, r.1 ≠ ub ∧ ∀ w ∈ r.2, w.off + w.bytes.length ≤ vsz) ∧
    ∀ i j : Nat, i ≠ j → ∀ ri rj, runs[i]? = some ri → runs[j]? = some rj →
      ∀ a ∈ ri.2, ∀ b ∈ rj.2, ¬ a.overlaps b := by
  intro runs
  have hp := hsort (tile 0 items)
  have htame : ∀ grp ∈ chunkBy (sort (tile 0 items)), ∀ g ∈ grp, Tame ds.dsize vsz g := by
    intro grp hgrp g hg
    refine h.tame g (hp.mem_iff.2 ?_)
    rw [← chunkBy_flatten (sort (tile 0 items))]
    exact List.mem_flatten.2 ⟨grp, hgrp, hg⟩
  refine ⟨?_, ?_⟩
  · intro r hr
    obtain ⟨grp, hgrp, rfl⟩ := List.mem_map.1 hr
    obtain ⟨h1, h2⟩ := parGroup_writes (io := io) (p := p) (chunkSz := csz) (htame grp hgrp) hn h.vszW
    refine ⟨h1, fun w hw => ?_⟩
    obtain ⟨g, hg, h3, h4⟩ := h2 w hw
    have := (htame grp hgrp g hg).fits
    rw [Nat.add_mul] at this
    omega
  · intro i j hij ri rj hi hj a ha b hb ⟨k, hk1, hk2⟩
    simp only [runs, List.getElem?_map, Option.map_eq_some_iff] at hi hj
    obtain ⟨gi, hgi, rfl⟩ := hi
    obtain ⟨gj, hgj, rfl⟩ := hj
    obtain ⟨-, h2⟩ := parGroup_writes (io := io) (p := p) (chunkSz := csz)
      (htame gi (List.mem_of_getElem? hgi)) hn h.vszW
    obtain ⟨-, h2'⟩ := parGroup_writes (io := io) (p := p) (chunkSz := csz)
      (htame gj (List.mem_of_getElem? hgj)) hn h.vszW
    obtain ⟨x, hx, hx1, hx2⟩ := h2 a ha
    obtain ⟨y, hy, hy1, hy2⟩ := h2' b hb
    have hpw : (chunkBy (sort (tile 0 items))).flatten.Pairwise fun a b : GItem =>
        a.current + (a.stop - a.start) ≤ b.current ∨ b.current + (b.stop - b.start) ≤ a.current := by
      rw [chunkBy_flatten]
      exact hp.pairwise ((tile_ordered items 0).imp .inl) Or.symm
    rcases pairwise_flatten_ne (fun _ _ => Or.symm) hpw hij hgi hgj hx hy with hle | hle
    · have := Nat.mul_le_mul_right ds.dsize hle
      rw [Nat.add_mul] at this
      omega
    · have := Nat.mul_le_mul_right ds.dsize hle
      rw [Nat.add_mul] at this
      omega

/-- `read_to_par`, any outcome, any file, any chunk sizes: no undefined behaviour, and only the first
`vsz` bytes are touched. -/
theorem par_safe {p : Profile} {io : Io} {ds : Dataset} {sort : List GItem → List GItem}
    {ext : Extents} {items : List Item} {vsz : Nat} {dst : List Byte} {res : Outcome Nat × List Byte}
    (hsort : ∀ l : List GItem, l.Perm (sort l)) (h : Sliced p ds ext items vsz)
    (hres : DirectReadToPar p io ds sort ext dst res) : res.1 ≠ ub ∧ SameFrom vsz res.2 dst := by
  cases hres with
  | early e he hne =>
    refine ⟨?_, SameFrom.refl _ _⟩
    rw [← he]
    exact (noUb_parPrelude _ _ _ _ _).bind fun _ => by simp [NoUb]
  | ran csz vsz' groups r dst' hpre hrun =>
    obtain ⟨-, h2, hn, l, h4, rfl⟩ := parPrelude_inv hpre
    rw [h.req] at h2
    obtain rfl := Outcome.ok.inj h2
    rw [h.grouped] at h4
    obtain rfl := Outcome.ok.inj h4
    obtain ⟨w1, w2⟩ := par_writes (io := io) (csz := csz) hsort h hn
    simp only
    have hin : ∀ w ∈ ((chunkBy (sort (tile 0 items))).map (parGroup p io ds csz dst.length)).flatMap
        Prod.snd, InRange vsz w := by
      intro w hw
      obtain ⟨r, hr, hw⟩ := List.mem_flatMap.1 hw
      exact (w1 r hr).2 w hw
    cases hrun with
    | done ws hall hperm =>
      exact ⟨by simp, sameFrom_writes hn fun w hw => hin w (hperm.mem_iff.1 hw)⟩
    | failed r hr hne ws rest hsub =>
      refine ⟨?_, sameFrom_writes hn fun w hw => hin w (hsub.mem_iff.1 (by simp [hw]))⟩
      exact NoUb.bind (w1 r hr).1 fun _ => by simp [NoUb]
    | race i j hij ri rj hi hj a b ha hb ho => exact absurd ho (w2 i j hij ri rj hi hj a ha b hb)

theorem flatMap_bytesOf_length {D : Chunk → Outcome (List Byte)} {dsz : Nat} {items : List Item}
    (hle : ∀ it ∈ items, it.start ≤ it.stop) (hr : ∀ it ∈ items, Ready D dsz it.chunk it.stop) :
    (items.flatMap (bytesOf D dsz)).length = total items * dsz := by
  induction items with
  | nil => simp [total]
  | cons it its ih =>
    rw [List.flatMap_cons, List.length_append, bytesOf_length (hle it (by simp)) (hr it (by simp)),
      ih (fun x hx => hle x (by simp [hx])) (fun x hx => hr x (by simp [hx])), total_cons, Nat.add_mul]

theorem fromChunks_items {D : Chunk → Outcome (List Byte)} {ds : Dataset} {items : List Item}
    (hm : ∀ it ∈ items, it.chunk ∈ ds.chunks) (hle : ∀ it ∈ items, it.start ≤ it.stop)
    (hr : ∀ it ∈ items, Ready D ds.dsize it.chunk it.stop) :
    FromChunks D ds (items.flatMap (bytesOf D ds.dsize)) := by
  induction items with
  | nil => exact .nil
  | cons it its ih =>
    rw [List.flatMap_cons]
    obtain ⟨v, hv, hl⟩ := hr it (by simp)
    have := FromChunks.piece it.chunk v (it.start * ds.dsize) (it.stop * ds.dsize) _ (hm it (by simp))
      hv (Nat.mul_le_mul_right _ (hle it (by simp))) hl
      (ih (fun x hx => hm x (by simp [hx])) (fun x hx => hle x (by simp [hx]))
        (fun x hx => hr x (by simp [hx])))
    rw [← Nat.sub_mul] at this
    unfold bytesOf part
    rw [hv]
    exact this

theorem reqBytes_debug {ds : Dataset} {ext : Extents} {start count : List Nat} {n : Nat}
    (hsel : Selects ext ds.shape start count) (h : reqBytes .debug ds ext = ok n) :
    n = count.prod * ds.dsize := by
  unfold reqBytes at h
  rw [(getCounts_of_sized ((selects_iff ext ds.shape start count).2 hsel)).1, ok_bind] at h
  obtain ⟨m, h1, h⟩ := bind_eq_ok.1 h
  rw [← product64_debug h1]
  exact (mul64_debug h).1

theorem selects_unique {ext : Extents} {shape a b c d : List Nat} (h : Selects ext shape a b)
    (h' : Selects ext shape c d) : a = c ∧ b = d := by
  have h1 := (selects_iff ext shape a b).2 h
  rw [(selects_iff ext shape c d).2 h'] at h1
  obtain ⟨rfl, rfl⟩ := Prod.mk.inj (Outcome.ok.inj h1)
  exact ⟨rfl, rfl⟩

theorem mul64_lt_W {p : Profile} {ds : Dataset} {ext : Extents} {n : Nat}
    (h : reqBytes p ds ext = ok n) : n < W := by
  unfold reqBytes at h
  obtain ⟨_, -, h⟩ := bind_eq_ok.1 h
  obtain ⟨_, -, h⟩ := bind_eq_ok.1 h
  exact mul64_lt h

/-- Slices of a checked read can be handled without overflow. -/
theorem checked_sliced {p : Profile} {ds : Dataset} {ext : Extents} {csz vsz : Nat}
    {items : List Item} (hk : Checked p ds ext) (hc : chunkBytes p ds = ok csz)
    (hv : reqBytes p ds ext = ok vsz) (hs : ds.chunkSlices p ext = ok ⟨items, ok ()⟩) :
    Sliced p ds ext items vsz := by
  rcases hk with rfl | ⟨start, count, hsel, ⟨hwf, hb, hg, hW, hC⟩ | ⟨hno, hoob⟩ | ⟨hwf, hb, hsn, hsize, hW⟩⟩
  · exact sliced_of_debug hc hv hs
  · obtain ⟨items', h1, -⟩ := sliced_of_good hwf hsel hb hg hW hC
    have h2 := h1.slices
    rw [hs] at h2
    obtain rfl := congrArg Trace.items (Outcome.ok.inj h2)
    have h3 := h1.req
    rw [hv] at h3
    obtain rfl := Outcome.ok.inj h3
    exact h1
  · have h2 := chunkSlices_oob (p := p) hsel hno hoob
    rw [hs] at h2
    obtain rfl := congrArg Trace.items (Outcome.ok.inj h2)
    exact ⟨hs, hv, by simp, by simp, by simp, by simp [total], by simp [total, W], mul64_lt_W hv⟩
  · cases p with
    | debug => exact sliced_of_debug hc hv hs
    | release =>
      obtain ⟨items', h1, -⟩ := sliced_of_snug hwf hsel hb hsn hsize hW
      have h2 := h1.slices
      rw [hs] at h2
      obtain rfl := congrArg Trace.items (Outcome.ok.inj h2)
      have h3 := h1.req
      rw [hv] at h3
      obtain rfl := Outcome.ok.inj h3
      exact h1

theorem not_oob_of_inBounds {start count shape : List Nat} (hb : InBounds start count shape) :
    ¬ ((∃ t ∈ start.zip (count.zip shape), t.2.2 < t.1 + t.2.1) ∨ 0 ∈ count) := by
  rintro (⟨t, ht, hlt⟩ | h0)
  · have := (hb.2.2 t ht).2
    omega
  · exact absurd (mem_count_of_bounds hb 0 h0) (by omega)

/-- A checked, complete iteration over an in-bounds selection has one position per element. -/
theorem checked_total {p : Profile} {ds : Dataset} {ext : Extents} {vsz : Nat}
    {items : List Item} {start count : List Nat} (hk : Checked p ds ext)
    (hsel : Selects ext ds.shape start count) (hb : InBounds start count ds.shape)
    (hv : reqBytes p ds ext = ok vsz) (hs : ds.chunkSlices p ext = ok ⟨items, ok ()⟩) :
    total items = count.prod ∧ vsz = count.prod * ds.dsize := by
  rcases hk with rfl | ⟨start', count', hsel', ⟨hwf, hb', hg, hW, hC⟩ | ⟨hno, hoob⟩ | ⟨hwf, hb', hsn, hsize, hW⟩⟩
  · exact ⟨total_debug hsel hb hs, reqBytes_debug hsel hv⟩
  · obtain ⟨rfl, rfl⟩ := selects_unique hsel hsel'
    obtain ⟨items', h1, h2⟩ := sliced_of_good hwf hsel hb hg hW hC
    have h3 := h1.slices
    rw [hs] at h3
    obtain rfl := congrArg Trace.items (Outcome.ok.inj h3)
    have h4 := h1.req
    rw [hv] at h4
    exact ⟨Enumerates.total h2 (by rw [hb.1, hb.2.1]), Outcome.ok.inj h4⟩
  · obtain ⟨rfl, rfl⟩ := selects_unique hsel hsel'
    exact absurd hoob (not_oob_of_inBounds hb)
  · obtain ⟨rfl, rfl⟩ := selects_unique hsel hsel'
    cases p with
    | debug => exact ⟨total_debug hsel hb hs, reqBytes_debug hsel hv⟩
    | release =>
      obtain ⟨items', h1, h2⟩ := sliced_of_snug hwf hsel hb hsn hsize hW
      have h3 := h1.slices
      rw [hs] at h3
      obtain rfl := congrArg Trace.items (Outcome.ok.inj h3)
      have h4 := h1.req
      rw [hv] at h4
      exact ⟨h2, Outcome.ok.inj h4⟩

theorem ensure_ok {b : Bool} {e : Err} {u : Unit} (h : ensure b e = ok u) : b = true := by
  cases b
  · simp [ensure] at h
  · rfl

theorem nocacheReadTo_inv {p : Profile} {io : Io} {file : List Byte} {ds : Dataset} {chunkSz : Nat}
    {ext : Extents} {dst : List Byte} {n : Nat}
    (h : (nocacheReadTo p io file ds chunkSz ext dst).1 = ok n) :
    ∃ vsz, reqBytes p ds ext = ok vsz ∧ ∃ items, ds.chunkSlices p ext = ok ⟨items, ok ()⟩ := by
  unfold nocacheReadTo at h
  cases hr : reqBytes p ds ext with
  | ok v =>
    simp only [hr, ok_bind] at h
    cases he : ensure (decide (v ≤ dst.length)) Err.capacity with
    | ok u =>
      simp only [he, ok_bind] at h
      cases hs : ds.chunkSlices p ext with
      | ok t =>
        simp only [hs, ok_bind] at h
        obtain ⟨_, -, h⟩ := bind_eq_ok.1 h
        obtain ⟨u, h, -⟩ := bind_eq_ok.1 h
        obtain ⟨items, e⟩ := t
        simp only at h
        subst h
        exact ⟨v, rfl, items, rfl⟩
      | err e => simp [hs] at h
      | «panic» e => simp [hs] at h
      | ub => simp [hs] at h
      | diverge => simp [hs] at h
    | err e => simp [he] at h
    | «panic» e => simp [he] at h
    | ub => simp [he] at h
    | diverge => simp [he] at h
  | err e => simp [hr] at h
  | «panic» e => simp [hr] at h
  | ub => simp [hr] at h
  | diverge => simp [hr] at h

theorem nocacheReadTo_fits {p : Profile} {io : Io} {file : List Byte} {ds : Dataset} {chunkSz : Nat}
    {ext : Extents} {dst : List Byte} {n vsz : Nat} (hr : reqBytes p ds ext = ok vsz)
    (h : (nocacheReadTo p io file ds chunkSz ext dst).1 = ok n) : vsz ≤ dst.length := by
  by_cases hc : vsz ≤ dst.length
  · exact hc
  · unfold nocacheReadTo at h
    simp [hr, hc, ensure] at h

theorem directReadTo_inv {p : Profile} {io : Io} {ds : Dataset} {sort : List GItem → List GItem}
    {ext : Extents} {dst : List Byte} {n : Nat}
    (h : (directReadTo p io ds sort ext dst).1 = ok n) :
    ∃ vsz, reqBytes p ds ext = ok vsz ∧ ∃ items, ds.chunkSlices p ext = ok ⟨items, ok ()⟩ := by
  unfold directReadTo at h
  simp only at h
  split at h
  · rename_i csz vsz groups file heq
    obtain ⟨c, h1, heq⟩ := bind_eq_ok.1 heq
    obtain ⟨v, h2, heq⟩ := bind_eq_ok.1 heq
    obtain ⟨_, h3, heq⟩ := bind_eq_ok.1 heq
    obtain ⟨g, h4, heq⟩ := bind_eq_ok.1 heq
    unfold Dataset.groupChunkSlices at h4
    obtain ⟨l, h6, h4⟩ := bind_eq_ok.1 h4
    obtain ⟨items, h7, -⟩ := groupUnsorted_inv h6
    exact ⟨v, h2, items, h7⟩
  · rename_i x hx
    obtain ⟨a, ha, -⟩ := bind_eq_ok.1 h
    obtain ⟨a1, a2, a3, a4⟩ := a
    exact absurd ha (hx a1 a2 a3 a4)

theorem directReadTo_fits {p : Profile} {io : Io} {ds : Dataset} {sort : List GItem → List GItem}
    {ext : Extents} {dst : List Byte} {n vsz : Nat} (hr : reqBytes p ds ext = ok vsz)
    (h : (directReadTo p io ds sort ext dst).1 = ok n) : vsz ≤ dst.length := by
  unfold directReadTo at h
  simp only at h
  split at h
  · rename_i csz vsz groups file heq
    obtain ⟨c, h1, heq⟩ := bind_eq_ok.1 heq
    obtain ⟨v, h2, heq⟩ := bind_eq_ok.1 heq
    obtain ⟨_, h3, heq⟩ := bind_eq_ok.1 heq
    rw [hr] at h2
    obtain rfl := Outcome.ok.inj h2
    simpa using ensure_ok h3
  · rename_i x hx
    obtain ⟨a, ha, -⟩ := bind_eq_ok.1 h
    obtain ⟨a1, a2, a3, a4⟩ := a
    exact absurd ha (hx a1 a2 a3 a4)

theorem par_inv {p : Profile} {io : Io} {ds : Dataset} {sort : List GItem → List GItem}
    {ext : Extents} {dst : List Byte} {n : Nat} {res : Outcome Nat × List Byte}
    (h : DirectReadToPar p io ds sort ext dst res) (hok : res.1 = ok n) :
    ∃ vsz, reqBytes p ds ext = ok vsz ∧ ∃ items, ds.chunkSlices p ext = ok ⟨items, ok ()⟩ := by
  cases h with
  | early e he hne => exact absurd hok (hne n)
  | ran csz vsz groups r dst' hpre hrun =>
    obtain ⟨-, h2, -, l, h4, -⟩ := parPrelude_inv hpre
    obtain ⟨items, h5, -⟩ := groupUnsorted_inv h4
    exact ⟨vsz, h2, items, h5⟩

theorem par_fits {p : Profile} {io : Io} {ds : Dataset} {sort : List GItem → List GItem}
    {ext : Extents} {dst : List Byte} {n vsz : Nat} {res : Outcome Nat × List Byte}
    (hr : reqBytes p ds ext = ok vsz) (h : DirectReadToPar p io ds sort ext dst res)
    (hok : res.1 = ok n) : vsz ≤ dst.length := by
  cases h with
  | early e he hne => exact absurd hok (hne n)
  | ran csz vsz groups r dst' hpre hrun =>
    obtain ⟨-, h2, h3, -⟩ := parPrelude_inv hpre
    rw [hr] at h2
    obtain rfl := Outcome.ok.inj h2
    exact h3

/-- `read_to_par` of a checked read: no undefined behaviour, and only the first `vsz` bytes are
touched. -/
theorem par_safe_checked {p : Profile} {io : Io} {ds : Dataset} {sort : List GItem → List GItem}
    {ext : Extents} {dst : List Byte} {res : Outcome Nat × List Byte} (hk : Checked p ds ext)
    (hsort : ∀ l : List GItem, l.Perm (sort l)) (hres : DirectReadToPar p io ds sort ext dst res) :
    res.1 ≠ ub ∧ ∀ vsz, reqBytes p ds ext = ok vsz → SameFrom vsz res.2 dst := by
  cases hres with
  | early e he hne =>
    refine ⟨?_, fun _ _ => SameFrom.refl _ _⟩
    rw [← he]
    exact (noUb_parPrelude _ _ _ _ _).bind fun _ => by simp [NoUb]
  | ran csz vsz' groups r dst' hpre hrun =>
    obtain ⟨h1, h2, hn, l, h4, rfl⟩ := parPrelude_inv hpre
    obtain ⟨items, h5, -⟩ := groupUnsorted_inv h4
    obtain ⟨q1, q2⟩ := par_safe hsort (checked_sliced hk h1 h2 h5) (.ran csz vsz' _ r dst' hpre hrun)
    refine ⟨q1, fun v hv => ?_⟩
    rw [h2] at hv
    obtain rfl := Outcome.ok.inj hv
    exact q2

/-- The slices of a checked read, however the iteration ends. -/
theorem checked_slices {p : Profile} {ds : Dataset} {ext : Extents} {t : Trace Item} {vsz csz : Nat}
    (hk : Checked p ds ext) (hc : chunkBytes p ds = ok csz) (hv : reqBytes p ds ext = ok vsz)
    (hs : ds.chunkSlices p ext = ok t) :
    (∀ it ∈ t.items, it.start ≤ it.stop) ∧ (∀ it ∈ t.items, it.stop * ds.dsize < W) ∧
      total t.items * ds.dsize ≤ vsz := by
  have hk' := hk
  rcases hk with rfl | ⟨start, count, hsel, ⟨hwf, hb, hg, hW, hC⟩ | ⟨hno, hoob⟩ | ⟨hwf, hb, hsn, hsize, hW⟩⟩
  · exact slices_debug hc hv hs
  · obtain ⟨items', h1, -⟩ := sliced_of_good hwf hsel hb hg hW hC
    have h2 := h1.slices
    rw [hs] at h2
    obtain rfl := Outcome.ok.inj h2
    have h3 := checked_sliced hk' hc hv hs
    exact ⟨fun it hit => Nat.le_of_lt (h3.le it hit), h3.lt, h3.fits⟩
  · have h2 := chunkSlices_oob (p := p) hsel hno hoob
    rw [hs] at h2
    obtain rfl := Outcome.ok.inj h2
    exact ⟨by simp, by simp, by simp [total]⟩
  · cases p with
    | debug => exact slices_debug hc hv hs
    | release =>
      obtain ⟨items', h1, -⟩ := sliced_of_snug hwf hsel hb hsn hsize hW
      have h2 := h1.slices
      rw [hs] at h2
      obtain rfl := Outcome.ok.inj h2
      have h3 := checked_sliced hk' hc hv hs
      exact ⟨fun it hit => Nat.le_of_lt (h3.le it hit), h3.lt, h3.fits⟩

theorem nocache_frame_checked {p : Profile} {io : Io} {file : List Byte} {ds : Dataset} {csz : Nat}
    {ext : Extents} {vsz : Nat} {dst : List Byte} (hk : Checked p ds ext)
    (hc : chunkBytes p ds = ok csz) (hv : reqBytes p ds ext = ok vsz) :
    SameFrom vsz (nocacheReadTo p io file ds csz ext dst).2 dst := by
  cases hs : ds.chunkSlices p ext with
  | ok t =>
    obtain ⟨h1, h2, h3⟩ := checked_slices hk hc hv hs
    exact nocacheReadTo_frame hv hs h1 h2 h3
  | _ =>
    unfold nocacheReadTo
    simp only [hv, ok_bind]
    by_cases hn : vsz ≤ dst.length
    · simp only [hn, decide_true, ensure_true, ok_bind, hs]
      exact SameFrom.refl _ _
    · simp only [hn, decide_false, ensure, Bool.false_eq_true, if_false, err_bind]
      exact SameFrom.refl _ _

theorem direct_frame_checked {p : Profile} {io : Io} {ds : Dataset} {sort : List GItem → List GItem}
    {ext : Extents} {vsz : Nat} {dst : List Byte} (hk : Checked p ds ext) (hdet : AddrDet ds)
    (hsort : ∀ l : List GItem, l.Perm (sort l)) (hv : reqBytes p ds ext = ok vsz) :
    SameFrom vsz (directReadTo p io ds sort ext dst).2 dst := by
  by_cases hs : ∃ csz items, chunkBytes p ds = ok csz ∧ ds.chunkSlices p ext = ok ⟨items, ok ()⟩
  · obtain ⟨csz, items, h1, h2⟩ := hs
    exact direct_frame hdet hsort (checked_sliced hk h1 hv h2)
  · unfold directReadTo
    simp only
    split
    · rename_i csz vsz groups file heq
      obtain ⟨c, h1, heq⟩ := bind_eq_ok.1 heq
      obtain ⟨v, h2, heq⟩ := bind_eq_ok.1 heq
      obtain ⟨_, h3, heq⟩ := bind_eq_ok.1 heq
      obtain ⟨g, h4, heq⟩ := bind_eq_ok.1 heq
      unfold Dataset.groupChunkSlices at h4
      obtain ⟨l, h6, h4⟩ := bind_eq_ok.1 h4
      obtain ⟨items, h7, -⟩ := groupUnsorted_inv h6
      exact absurd ⟨c, items, h1, h7⟩ hs
    · exact SameFrom.refl _ _

end Hidefix.Proofs
