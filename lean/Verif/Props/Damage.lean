import Verif.Props.Builds
import Verif.Proofs.Damage

/-!
# Property C49: truncated files
-/

set_option autoImplicit false

namespace Hidefix.Props
open Hidefix Hidefix.Spec Hidefix.Proofs Outcome

/-- The selection needs chunk `c`: some selected coordinate is stored in it. -/
def Needs (ds : Dataset) (start count : List Nat) (c : Chunk) : Prop :=
  c ∈ ds.chunks ∧ ∃ x, InBox start count x ∧ InBox c.offset ds.chunkShape x

/-- The file cut to its first `m` bytes. -/
def truncated (io : Io) (file : List Byte) (m : Nat) : Io := { io with file := some (file.take m) }

theorem inBox_rowMajor {start count x : List Nat} (h : InBox start count x) :
    x ∈ rowMajor start count := by
  induction start generalizing count x with
  | nil =>
    match count, x, h with
    | [], [], _ => simp [rowMajor]
  | cons i is ih =>
    match count, x, h with
    | c :: cs, y :: ys, h =>
      simp only [rowMajor, List.mem_flatMap, List.mem_map, List.mem_range'_1]
      exact ⟨y, h.1, ys, ih h.2, rfl⟩

theorem forall₂_left {α β : Type} {R : α → β → Prop} {l : List α} {m : List β}
    (h : List.Forall₂ R l m) {a : α} (ha : a ∈ l) : ∃ b ∈ m, R a b := by
  induction h with
  | nil => simp at ha
  | cons hr _ ih =>
    rcases List.mem_cons.1 ha with rfl | ha
    · exact ⟨_, by simp, hr⟩
    · obtain ⟨b, hb, hr⟩ := ih ha; exact ⟨b, by simp [hb], hr⟩

theorem forall₂_right {α β : Type} {R : α → β → Prop} {l : List α} {m : List β}
    (h : List.Forall₂ R l m) {b : β} (hb : b ∈ m) : ∃ a ∈ l, R a b := by
  induction h with
  | nil => simp at hb
  | cons hr _ ih =>
    rcases List.mem_cons.1 hb with rfl | hb
    · exact ⟨_, by simp, hr⟩
    · obtain ⟨a, ha, hr⟩ := ih hb; exact ⟨a, by simp [ha], hr⟩

/-- The chunks of the slices are the needed ones. -/
theorem needs_iff {p : Profile} {ds : Dataset} {start count : List Nat} {items : List Item}
    (hwf : WF p ds) (hb : InBounds start count ds.shape) (he : Enumerates ds start count items)
    (hlt : ∀ it ∈ items, it.start < it.stop) (c : Chunk) :
    Needs ds start count c ↔ ∃ it ∈ items, it.chunk = c := by
  constructor
  · rintro ⟨hc, x, hx, hxc⟩
    obtain ⟨⟨c', k⟩, hm, hs⟩ := forall₂_left he (inBox_rowMajor hx)
    simp only at hs
    obtain ⟨c0, -, -, -, hu⟩ := C04 hwf (inBox_shape hb hx)
    have : c' = c := (hu c' hs.1 hs.2.1).trans (hu c hc hxc).symm
    subst this
    simp only [expand, List.mem_flatMap, List.mem_map] at hm
    obtain ⟨it, hit, k', -, hk⟩ := hm
    exact ⟨it, hit, congrArg Prod.fst hk⟩
  · rintro ⟨it, hit, rfl⟩
    have hm : (it.chunk, it.start) ∈ expand items := by
      simp only [expand, List.mem_flatMap, List.mem_map, List.mem_range'_1]
      exact ⟨it, hit, it.start, ⟨Nat.le_refl _, by have := hlt it hit; omega⟩, rfl⟩
    obtain ⟨x, hx, hs⟩ := forall₂_right he hm
    exact ⟨hs.1, x, mem_rowMajor (by rw [hb.1, hb.2.1]) hx, hs.2.1⟩

theorem truncated_rawD {p : Profile} {io : Io} {file : List Byte} {ds : Dataset}
    {A : List Nat → List Byte} {ext : Extents} {start count : List Nat} {m : Nat}
    (h : Setup p io file ds A ext start count) {c : Chunk} (hc : c ∈ ds.chunks) {csz : Nat} :
    (m < c.addr + c.size ∧ 0 < c.size →
      rawD p (truncated io file m) (file.take m) ds csz c = err .io) ∧
    (¬ (m < c.addr + c.size ∧ 0 < c.size) →
      rawD p (truncated io file m) (file.take m) ds csz c = rawD p io file ds csz c) :=
  readChunk_take rfl (h.stores.chunk c hc).1 h.sizes.file

/-- Everything about reading a truncated file. -/
theorem truncated_core {p : Profile} {io : Io} {file : List Byte} {ds : Dataset}
    {A : List Nat → List Byte} {ext : Extents} {start count : List Nat} {m : Nat}
    (h : Setup p io file ds A ext start count) (hg : Good p ds start count) :
    ∃ items, Sliced p ds ext items (count.prod * ds.dsize) ∧
      chunkBytes p ds = ok (ds.chunkShape.prod * ds.dsize) ∧
      (∀ it ∈ items, Ready (rawD p (truncated io file m) (file.take m) ds
          (ds.chunkShape.prod * ds.dsize)) ds.dsize it.chunk it.stop ∨
        rawD p (truncated io file m) (file.take m) ds (ds.chunkShape.prod * ds.dsize) it.chunk =
          err .io) ∧
      ((∀ it ∈ items, Ready (rawD p (truncated io file m) (file.take m) ds
          (ds.chunkShape.prod * ds.dsize)) ds.dsize it.chunk it.stop) ↔
        ∀ c, Needs ds start count c → ¬ (m < c.addr + c.size ∧ 0 < c.size)) ∧
      ((∀ c, Needs ds start count c → ¬ (m < c.addr + c.size ∧ 0 < c.size)) →
        items.flatMap (bytesOf (rawD p (truncated io file m) (file.take m) ds
          (ds.chunkShape.prod * ds.dsize)) ds.dsize) = selected A start count) := by
  obtain ⟨items, h1, h2, h3, h4, h5⟩ := setup_core h hg
  have hn := needs_iff h.wf h.inb h2 h1.le
  refine ⟨items, h1, h3, fun it hit => ?_, ⟨fun hr c hc hcut => ?_, fun hr it hit => ?_⟩, fun hr => ?_⟩
  · by_cases hcut : m < it.chunk.addr + it.chunk.size ∧ 0 < it.chunk.size
    · exact .inr ((truncated_rawD h (h1.mem it hit)).1 hcut)
    · left
      obtain ⟨v, hv, hl⟩ := h4 it hit
      exact ⟨v, ((truncated_rawD h (h1.mem it hit)).2 hcut).trans hv, hl⟩
  · obtain ⟨it, hit, rfl⟩ := (hn c).1 hc
    obtain ⟨v, hv, -⟩ := hr it hit
    rw [(truncated_rawD h (h1.mem it hit)).1 hcut] at hv
    simp at hv
  · obtain ⟨v, hv, hl⟩ := h4 it hit
    exact ⟨v, ((truncated_rawD h (h1.mem it hit)).2 (hr _ ((hn _).2 ⟨it, hit, rfl⟩))).trans hv, hl⟩
  · rw [← h5, List.flatMap_def, List.flatMap_def]
    congr 1
    refine List.map_congr_left fun it hit => ?_
    unfold bytesOf
    rw [(truncated_rawD h (h1.mem it hit)).2 (hr _ ((hn _).2 ⟨it, hit, rfl⟩))]

/-- C49: if the file is cut so that a chunk the selection needs is not completely in it, every
reader returns an I/O error (no panic, no success); the stream ends with that error, after a prefix
of the right bytes (`C15_prefix_partial`). Restricted to the selections of `Spec.Good`. -/
theorem C49_partial {p : Profile} {rt : Rt} {io : Io} {file : List Byte} {ds : Dataset}
    {A : List Nat → List Byte} {ext : Extents} {start count : List Nat}
    {sort : List GItem → List GItem} {dst : List Byte} {m : Nat} {c : Chunk}
    (h : Setup p io file ds A ext start count) (hg : Good p ds start count)
    (hsort : ∀ l, SortedByAddr l (sort l)) (hd : count.prod * ds.dsize ≤ dst.length)
    (hneed : Needs ds start count c) (hcut : m < c.addr + c.size) (hsz : 0 < c.size) :
    (directReadTo p (truncated io file m) ds sort ext dst).1 = err .io ∧
    (∀ res, DirectReadToPar p (truncated io file m) ds sort ext dst res → res.1 = err .io) ∧
    (∀ rd hist, CacheReader.withDataset p ds = ok rd →
      ((afterReads p (truncated io file m) (file.take m) ds rd hist).readTo p (truncated io file m)
        (file.take m) ds ext dst).1 = err .io) ∧
    (rt ≠ .currentThread →
      ∃ items, streamBytes p rt (truncated io file m) ds ext = ok ⟨items, err .io⟩) := by
  obtain ⟨items, h1, h3, h4, h5, -⟩ := truncated_core (m := m) h hg
  have hbad : ¬ ∀ it ∈ items, Ready (rawD p (truncated io file m) (file.take m) ds
      (ds.chunkShape.prod * ds.dsize)) ds.dsize it.chunk it.stop := fun hr =>
    h5.1 hr c hneed ⟨hcut, hsz⟩
  refine ⟨direct_err h.addr (fun l => (hsort l).1) h3 rfl h1 hd h4 hbad,
    fun res hres => par_err h.addr (fun l => (hsort l).1) h3 rfl h1 hd h4 hbad hres,
    fun rd hist hrd => ?_, fun hrt => ?_⟩
  · obtain ⟨e1, -⟩ := cache_read (io := truncated io file m) (file := file.take m) h.addr hrd hist ext
      dst
    obtain ⟨-, e3, -⟩ := withDataset_inv (io := truncated io file m) (file := file.take m) hrd
    rw [h3] at e3
    obtain e3 := Outcome.ok.inj e3
    rw [← e3] at e1
    rw [e1]
    exact nocache_err h1 hd h4 hbad
  · have hs := streamRun_spec (p := p) (rt := rt) (io := truncated io file m) (ds := ds)
      (chunkSz := ds.chunkShape.prod * ds.dsize)
      (cap := max (33554432 / (ds.chunkShape.prod * ds.dsize)) 1) (x := 1) (conv := ok) h.addr
      (file := file.take m) rfl
      (by omega) (fun it hit => Nat.le_of_lt (h1.le it hit)) (by rw [Nat.mul_one]; exact h1.lt) h1.mem
    have hD : streamD p rt (truncated io file m) (file.take m) ds (ds.chunkShape.prod * ds.dsize) ok =
        rawD p (truncated io file m) (file.take m) ds (ds.chunkShape.prod * ds.dsize) := by
      funext c
      rw [streamD_eq hrt]; exact Outcome.bind_pure _
    simp only [Nat.mul_one, hD] at hs
    obtain ⟨hok, -, pre, post, e1, e2, e3, e4⟩ := hs
    have hpost : post ≠ [] := by
      rintro rfl
      rw [List.append_nil] at e1
      subst e1
      exact hbad e2
    obtain ⟨it, its, rfl, hnr, hend⟩ := e4 hpost
    have hm : it ∈ items := by rw [e1]; simp
    have hDit := (h4 it hm).resolve_left hnr
    have hlt := h1.lt it hm
    have hle : it.start * ds.dsize ≤ it.stop * ds.dsize :=
      Nat.mul_le_mul_right _ (Nat.le_of_lt (h1.le it hm))
    have hp : plainStep p (rawD p (truncated io file m) (file.take m) ds
        (ds.chunkShape.prod * ds.dsize)) (ok 1) [] (it.chunk, bOf ds.dsize it) = err .io := by
      unfold plainStep
      rw [hDit]
      simp only [bOf, ok_bind]
      rw [mul64_of_lt (by omega), ok_bind, mul64_of_lt (by omega), ok_bind]
      simp [hle]
    rw [hp, err_bind] at hend
    have hrun : streamBytes p rt (truncated io file m) ds ext =
        ok (streamRun p rt (truncated io file m) ds (ds.chunkShape.prod * ds.dsize)
        (max (33554432 / (ds.chunkShape.prod * ds.dsize)) 1) (ok 1) ok (items.map (bOf ds.dsize))) := by
      unfold streamBytes
      rw [h3, ok_bind, streamSlices_ok h1, ok_bind, lruCap_ok (chunkBytes_pos h.wf h.sizes), ok_bind]
    revert hend hrun
    generalize streamRun p rt (truncated io file m) ds (ds.chunkShape.prod * ds.dsize) _ _ _ _ = t
    obtain ⟨ti, te⟩ := t
    intro hend hrun
    simp only at hend
    subst hend
    exact ⟨ti, hrun⟩

/-- C49, the other half: a truncated file that still contains every needed chunk is read as before.
With `C49_partial`: never a partial success. -/
theorem C49_intact_partial {p : Profile} {io : Io} {file : List Byte} {ds : Dataset}
    {A : List Nat → List Byte} {ext : Extents} {start count : List Nat}
    {sort : List GItem → List GItem} {dst : List Byte} {m : Nat}
    (h : Setup p io file ds A ext start count) (hg : Good p ds start count)
    (hsort : ∀ l, SortedByAddr l (sort l)) (hd : count.prod * ds.dsize ≤ dst.length)
    (hin : ∀ c, Needs ds start count c → c.addr + c.size ≤ m) :
    directReadTo p (truncated io file m) ds sort ext dst =
      (ok (count.prod * ds.dsize), selected A start count ++ dst.drop (count.prod * ds.dsize)) := by
  obtain ⟨items, h1, h3, h4, h5, h6⟩ := truncated_core (m := m) h hg
  have hcut : ∀ c, Needs ds start count c → ¬ (m < c.addr + c.size ∧ 0 < c.size) := fun c hc => by
    have := hin c hc; omega
  rw [(directReadTo_iff h.addr (fun l => (hsort l).1) h3 rfl h1 hd).2 (h5.2 hcut), h6 hcut, blit_zero,
    selected_length h]

/-- C46 for whole reads: if the file `file'` at hand has, for a chunk the selection needs, a stream
that is invalid or decompresses to more bytes than the chunk size, no reader succeeds. (The dataset
describes a sound file `file`, of which `file'` is any corruption.) Missing: streams that decompress
to fewer bytes (`not_C46`), and selections that are not `Spec.Good`. -/
theorem C46_read_partial {p : Profile} {rt : Rt} {io io' : Io} {file file' : List Byte} {ds : Dataset}
    {A : List Nat → List Byte} {ext : Extents} {start count : List Nat}
    {sort : List GItem → List GItem} {dst : List Byte} {c : Chunk}
    (h : Setup p io file ds A ext start count) (hg : Good p ds start count)
    (hsort : ∀ l, SortedByAddr l (sort l)) (hd : count.prod * ds.dsize ≤ dst.length)
    (hf : io'.file = some file') (hneed : Needs ds start count c) (hgz : ds.gzip.isSome = true)
    (hsz : 0 < c.size)
    (hbad : ∀ d, io'.inflate ((file'.drop c.addr).take c.size) = some d →
      ds.chunkShape.prod * ds.dsize < d.length) :
    (∀ n, (directReadTo p io' ds sort ext dst).1 ≠ ok n) ∧
    (∀ res, DirectReadToPar p io' ds sort ext dst res → ∀ n, res.1 ≠ ok n) ∧
    (∀ rd hist, CacheReader.withDataset p ds = ok rd →
      ∀ n, ((afterReads p io' file' ds rd hist).readTo p io' file' ds ext dst).1 ≠ ok n) ∧
    (rt ≠ .currentThread → ∀ items, streamBytes p rt io' ds ext ≠ ok ⟨items, ok ()⟩) := by
  obtain ⟨items, h1, h2, h3, -, -⟩ := setup_core h hg
  obtain ⟨it, hit, hic⟩ := (needs_iff h.wf h.inb h2 h1.le c).1 hneed
  have hnr : ¬ ∀ it ∈ items, Ready (rawD p io' file' ds (ds.chunkShape.prod * ds.dsize)) ds.dsize
      it.chunk it.stop := by
    intro hr
    obtain ⟨v, hv, -⟩ := hr it hit
    rw [hic] at hv
    unfold rawD at hv
    rw [hgz] at hv
    exact C46_partial hbad hsz v hv
  refine ⟨fun n hn => ?_, fun res hres n hn => ?_, fun rd hist hrd n hn => ?_, fun hrt its hn => ?_⟩
  · exact hnr (((directReadTo_iff h.addr (fun l => (hsort l).1) h3 hf h1 hd).1 n).1 hn).2
  · rcases directPar_cases h.addr (fun l => (hsort l).1) h3 hf (safe_rawD p io' file' ds _) h1 hd hres
      with ⟨hr, -⟩ | ⟨-, hno, -⟩
    · exact hnr hr
    · exact hno n hn
  · obtain ⟨e1, -⟩ := cache_read (io := io') (file := file') h.addr hrd hist ext dst
    obtain ⟨-, e3, -⟩ := withDataset_inv (io := io') (file := file') hrd
    rw [h3] at e3
    obtain e3 := Outcome.ok.inj e3
    rw [← e3] at e1
    rw [e1] at hn
    exact hnr ((nocacheReadTo_iff h1 hd n).1 hn).2
  · obtain ⟨t, t1, t2, -⟩ := streamBytes_spec h.addr hf h3 (chunkBytes_pos h.wf h.sizes) h1 hrt
    rw [t1] at hn
    obtain rfl := Outcome.ok.inj hn
    exact hnr (t2.1 rfl)

/-- A file that cannot be opened. -/
theorem C49_missing {p : Profile} {io : Io} {file : List Byte} {ds : Dataset}
    {A : List Nat → List Byte} {ext : Extents} {start count : List Nat}
    {sort : List GItem → List GItem} {dst : List Byte}
    (h : Setup p io file ds A ext start count) (hg : Good p ds start count)
    (hd : count.prod * ds.dsize ≤ dst.length) :
    directReadTo p { io with file := none } ds sort ext dst = (err .io, dst) := by
  obtain ⟨items, h1, -, h3, -⟩ := setup_core h hg
  unfold directReadTo
  rw [h3, ok_bind, h1.req, ok_bind, show decide (count.prod * ds.dsize ≤ dst.length) = true by
    simpa using hd, ensure_true, ok_bind, h1.groups, ok_bind]
  rfl

/-- Without a file that can be opened, every result of the parallel read of a selection with at least
one element is that error, and the destination is as it was; a stream yields nothing but that error. -/
theorem C49_missing_par {p : Profile} {rt : Rt} {io : Io} {file : List Byte} {ds : Dataset}
    {A : List Nat → List Byte} {ext : Extents} {start count : List Nat}
    {sort : List GItem → List GItem} {dst : List Byte}
    (h : Setup p io file ds A ext start count) (hg : Good p ds start count)
    (hsort : ∀ l, SortedByAddr l (sort l)) (hne : 0 < count.prod)
    (hd : count.prod * ds.dsize ≤ dst.length) :
    (∀ res, DirectReadToPar p { io with file := none } ds sort ext dst res → res = (err .io, dst)) ∧
    streamBytes p rt { io with file := none } ds ext = ok ⟨[], err .io⟩ := by
  obtain ⟨items, h1, he, h3, -⟩ := setup_core h hg
  have hit : items ≠ [] := by
    rintro rfl
    have ht := Enumerates.total he (by have := h.inb; unfold InBounds at this; omega)
    simp [total] at ht
    omega
  have hpre : parPrelude p ds sort ext dst.length = ok (ds.chunkShape.prod * ds.dsize,
      count.prod * ds.dsize, chunkBy (sort (tile 0 items))) := by
    unfold parPrelude
    rw [h3, ok_bind, h1.req, ok_bind, show decide (count.prod * ds.dsize ≤ dst.length) = true by
      simpa using hd, ensure_true, ok_bind, h1.groups, ok_bind]
  have hgr : chunkBy (sort (tile 0 items)) ≠ [] := by
    intro e
    have hfl := chunkBy_flatten (sort (tile 0 items))
    rw [e] at hfl
    have hp := (hsort (tile 0 items)).1
    rw [← hfl] at hp
    have := hp.eq_nil
    cases items with
    | nil => exact hit rfl
    | cons it its => simp [tile] at this
  have hrun : ∀ grp, parGroup p { io with file := none } ds (ds.chunkShape.prod * ds.dsize) dst.length
      grp = (err .io, []) := fun grp => rfl
  refine ⟨fun res hres => ?_, ?_⟩
  · cases hres with
    | early e hh hne' =>
      rw [hpre] at hh
      exact absurd hh.symm (hne' _)
    | ran csz vsz groups r dst' hp hr =>
      rw [hpre] at hp
      obtain ⟨rfl, hp2⟩ := Prod.mk.inj (Outcome.ok.inj hp)
      obtain ⟨rfl, rfl⟩ := Prod.mk.inj hp2
      have hmap : (chunkBy (sort (tile 0 items))).map (parGroup p { io with file := none } ds
          (ds.chunkShape.prod * ds.dsize) dst.length) =
          (chunkBy (sort (tile 0 items))).map fun _ => (err .io, []) :=
        List.map_congr_left fun grp _ => hrun grp
      rw [hmap] at hr
      have hnone : (((chunkBy (sort (tile 0 items))).map fun _ =>
          ((err .io, []) : Outcome Unit × List Write)).flatMap Prod.snd) = [] := by
        rw [List.flatMap_map]; simp
      cases hr with
      | done ws hall _ =>
        obtain ⟨grp, hgm⟩ := List.exists_mem_of_ne_nil _ hgr
        exact absurd (hall _ (List.mem_map.2 ⟨grp, hgm, rfl⟩)) (by simp)
      | failed x hx hne' ws rest hsub =>
        obtain ⟨grp, -, rfl⟩ := List.mem_map.1 hx
        rw [hnone] at hsub
        have := hsub.eq_nil
        obtain rfl := (List.append_eq_nil_iff.1 this).1
        rfl
      | race i j hij ri rj hi hj a b ha hb ho =>
        obtain ⟨grp, -, rfl⟩ := List.mem_map.1 (List.mem_of_getElem? hi)
        simp at ha
  · unfold streamBytes
    rw [h3, ok_bind, streamSlices_ok h1, ok_bind, lruCap_ok (chunkBytes_pos h.wf h.sizes), ok_bind]
    rfl

example (p : Profile) (res : Outcome Nat × List Byte) (h : DirectReadToPar p
    { Demo.io with file := none } Demo.ds sortByAddr Demo.ext (List.replicate 12 0) res) :
    res = (err .io, List.replicate 12 0) :=
  (C49_missing_par (rt := .none) (Demo.setup p) Demo.good sortByAddr_ok (by decide) (by decide)).1 res h

/-- The last chunk of `Demo.ds` is cut by one byte: reading rows 1..3 fails. -/
example (p : Profile) : (directReadTo p (truncated Demo.io Demo.file 37) Demo.ds sortByAddr Demo.ext
    (List.replicate 12 0)).1 = err .io :=
  (C49_partial (rt := .none) (m := 37) (c := ⟨29, 9, [2, 2]⟩) (Demo.setup p) Demo.good sortByAddr_ok
    (by decide) ⟨by decide, [2, 2], by simp [InBox], by simp [InBox, Demo.ds]⟩ (by decide)
    (by decide)).1

end Hidefix.Props
