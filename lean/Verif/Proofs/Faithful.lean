import Verif.Proofs.Profiles
import Verif.Model.Session
import Verif.Model.Open
import Verif.Model.Tools
import Verif.Model.Entry
import Verif.Model.Xarray

/-!
# Debug and release builds: the rest of the API (for C75)
-/

set_option autoImplicit false

namespace Hidefix.Proofs
open Hidefix Outcome

theorem Le.same {α : Type} {x y : Outcome α} (h : Le x y) (hx : ∀ f, x ≠ .panic f) : y = x := by
  rcases h with ⟨f, hf⟩ | h
  · exact absurd hf (hx f)
  · exact h.symm

theorem PLe.same {α β : Type} {x y : Outcome α × β} (h : PLe x y) (hx : ∀ f, x.1 ≠ .panic f) : y = x := by
  rcases h with ⟨f, hf⟩ | h
  · exact absurd hf (hx f)
  · exact h.symm

/-! ## S3 -/

theorem le_newRequest (g : GItem) : Le (newRequest .debug g) (newRequest .release g) :=
  (le_add64 _ _).bind fun _ _ => .inr rfl

theorem le_coalesces (r : Request) (c : Chunk) : Le (coalesces .debug r c) (coalesces .release r c) := by
  unfold coalesces
  split
  · exact .inr rfl
  split
  · exact .inr rfl
  · exact (le_add64 _ _).bind fun _ _ => (le_sub64 _ _).bind fun _ _ => .inr rfl

theorem le_requestStep (acc : List Request) (g : GItem) :
    Le (requestStep .debug acc g) (requestStep .release acc g) := by
  unfold requestStep
  split
  · exact (le_newRequest _).bind fun _ _ => .inr rfl
  split
  · exact .inr rfl
  split
  · exact .inr rfl
  · refine (le_coalesces _ _).bind fun b _ => ?_
    split
    · exact (le_add64 _ _).bind fun _ _ => .inr rfl
    · exact (le_newRequest _).bind fun _ _ => .inr rfl

theorem le_groupRequests (l : List GItem) : Le (groupRequests .debug l) (groupRequests .release l) :=
  le_foldlM le_requestStep _ _

theorem le_fetch (server : Server) (r : Request) : Le (fetch .debug server r) (fetch .release server r) := by
  unfold fetch
  refine (le_sub64 _ _).bind fun last _ => (Le.rfl' _).bind fun _ _ => ?_
  split
  · exact .inr rfl
  · exact (Le.rfl' _).bind fun _ _ => (le_sub64 _ _).bind fun _ _ => .inr rfl

theorem le_s3Step (inflate : List Byte → Option (List Byte)) (ds : Dataset) (chunkSz : Nat)
    (server : Server) (s : S3St) (op : S3Op) :
    Le (s3Step .debug inflate ds chunkSz server s op) (s3Step .release inflate ds chunkSz server s op) := by
  cases op with
  | recv r => exact (le_fetch _ _).bind fun _ _ => .inr rfl
  | decode c =>
    exact (le_sub64 _ _).bind fun _ _ => (le_add64 _ _).bind fun _ _ => (Le.rfl' _).bind fun _ _ =>
      (le_decodeChunk _ _ _ _ _ _).bind fun _ _ => .inr rfl
  | copy g =>
    exact (le_mul64 _ _).bind fun _ _ => (le_mul64 _ _).bind fun _ _ => (le_mul64 _ _).bind fun _ _ =>
      (le_debugAssert _).bind fun _ _ => (le_debugAssert _).bind fun _ _ =>
      (le_sub64 _ _).bind fun _ _ => (le_add64 _ _).bind fun _ _ => .inr rfl

theorem le_s3Prelude (ds : Dataset) (sort : List GItem → List GItem) (ext : Extents) (n : Nat) :
    Le (s3Prelude .debug ds sort ext n) (s3Prelude .release ds sort ext n) :=
  (le_chunkBytes _).bind fun _ _ => (le_reqBytes _ _).bind fun _ _ => (Le.rfl' _).bind fun _ _ =>
    (le_groups _ _ _).bind fun _ _ => (le_groupRequests _).bind fun _ _ => .inr rfl

theorem le_s3ReadTo (inflate : List Byte → Option (List Byte)) (ds : Dataset)
    (sort : List GItem → List GItem) (server : Server) (complete : List Request → List Request)
    (ext : Extents) (dst : List Byte) :
    PLe (s3ReadTo .debug inflate ds sort server complete ext dst)
      (s3ReadTo .release inflate ds sort server complete ext dst) := by
  unfold s3ReadTo
  rcases le_s3Prelude ds sort ext dst.length with ⟨f, h⟩ | h
  · rw [h]; exact .inl ⟨f, rfl⟩
  rw [← h]
  cases s3Prelude .debug ds sort ext dst.length with
  | ok x =>
    obtain ⟨csz, vsz, reqs⟩ := x
    simp only
    rcases le_loop (le_s3Step inflate ds csz server) ⟨[], 0, [], dst⟩
      ((complete reqs).flatMap requestOps) with ⟨f, hf⟩ | hf
    · left; exact ⟨f, by simp only [hf, panic_bind]⟩
    · right; rw [hf]
  | _ => exact .inr rfl

/-! ## Selections -/

theorem le_ofExpr (e : RangeExpr) : Le (Extent.ofExpr .debug e) (Extent.ofExpr .release e) := by
  cases e <;> first
    | exact .inr rfl
    | exact (le_add64 _ _).bind fun _ _ => .inr rfl

theorem le_convAll (l : List RangeExpr) : Le (Extents.convAll .debug l) (Extents.convAll .release l) := by
  induction l with
  | nil => exact .inr rfl
  | cons e l ih => exact (le_ofExpr e).bind fun _ _ => ih.bind fun _ _ => .inr rfl

theorem le_selection (e : SelExpr) : Le (Extents.ofExpr .debug e) (Extents.ofExpr .release e) := by
  cases e with
  | single e => exact (le_ofExpr e).bind fun _ _ => .inr rfl
  | list l => exact (le_convAll l).bind fun _ _ => .inr rfl
  | _ => exact .inr rfl

/-! ## Indexing -/

theorem le_expectedChunks (acc : Nat) (s c : List Nat) :
    Le (expectedChunks .debug acc s c) (expectedChunks .release acc s c) := by
  induction s generalizing acc c with
  | nil => exact .inr rfl
  | cons x s ih =>
    cases c with
    | nil => exact .inr rfl
    | cons y c =>
      unfold expectedChunks
      split
      · exact .inr rfl
      · exact (le_mul64 _ _).bind fun _ _ => ih _ _

theorem le_datasetIndex (D : Nat) (h : H5Dataset) : Le (Dataset.index .debug D h) (Dataset.index .release D h) := by
  unfold Dataset.index
  refine (Le.rfl' _).bind fun _ _ => (Le.rfl' _).bind fun x _ => ?_
  obtain ⟨sh, gz⟩ := x
  exact (Le.rfl' _).bind fun _ _ => (Le.rfl' _).bind fun _ _ => (Le.rfl' _).bind fun _ _ =>
    (le_expectedChunks _ _ _).bind fun _ _ => (Le.rfl' _).bind fun _ _ => le_new _ _ _ _ _ _ _

theorem le_datasetDIndex (h : H5Dataset) : Le (DatasetD.index .debug h) (DatasetD.index .release h) := by
  unfold DatasetD.index
  split
  · exact le_datasetIndex _ _
  · exact .inr rfl

theorem le_indexDatasets (l : List (Name × H5Dataset)) :
    Le (indexDatasets .debug l) (indexDatasets .release l) := by
  induction l with
  | nil => exact .inr rfl
  | cons e l ih =>
    obtain ⟨m, d⟩ := e
    unfold indexDatasets
    split
    · exact (le_datasetDIndex _).bind fun _ _ => ih.bind fun _ _ => .inr rfl
    · exact ih

mutual
theorem le_indexGroup (path : Option Name) (full : Name) (g : H5Group) :
    Le (indexGroup .debug path full g) (indexGroup .release path full g) := by
  cases g with
  | mk ds gs =>
    unfold indexGroup
    exact (le_indexDatasets _).bind fun _ _ => (le_indexGroups path full gs).bind fun _ _ => .inr rfl
theorem le_indexGroups (path : Option Name) (full : Name) (l : List (Name × H5Group)) :
    Le (indexGroups .debug path full l) (indexGroups .release path full l) := by
  cases l with
  | nil => exact .inr (by unfold indexGroups; rfl)
  | cons e l =>
    obtain ⟨link, g⟩ := e
    unfold indexGroups
    exact (le_indexGroup path _ g).bind fun _ _ => (Le.rfl' _).bind fun _ _ =>
      (le_indexGroups path full l).bind fun _ _ => .inr rfl
end

theorem le_indexFile (path : Option Name) (root : H5Group) :
    Le (Index.indexFile .debug path root) (Index.indexFile .release path root) :=
  (le_indexGroup _ _ _).bind fun _ _ => .inr rfl

theorem le_index (h5 : Name → Option H5Group) (path : Name) :
    Le (Index.index .debug h5 path) (Index.index .release h5 path) := by
  unfold Index.index
  split
  · exact .inr rfl
  · exact le_indexFile _ _

theorem le_hfxidxBytes (f : Features) (h5 : Name → Option H5Group) (input : Name) (ty : OutType) :
    Le (hfxidxBytes .debug f h5 input ty) (hfxidxBytes .release f h5 input ty) :=
  (le_index _ _).bind fun _ _ => .inr rfl

/-! ## Python -/

theorem le_isizeSucc (i : Int) : Le (isizeSucc .debug i) (isizeSucc .release i) := by
  unfold isizeSucc
  split
  · exact .inr rfl
  · exact .inl ⟨_, rfl⟩

theorem le_pySlice (it : PyItem) : Le (pySlice .debug it) (pySlice .release it) := by
  cases it with
  | int i =>
    dsimp only [pySlice]
    split
    · exact (le_isizeSucc _).bind fun _ _ => .inr rfl
    · exact .inr rfl
  | _ => exact .inr rfl

theorem le_pyDims (its : List PyItem) (dims : List Nat) :
    Le (pyDims .debug its dims) (pyDims .release its dims) := by
  induction its generalizing dims with
  | nil => exact .inr (by unfold pyDims; rfl)
  | cons it its ih =>
    cases dims with
    | nil => exact (le_pySlice it).bind fun _ _ => .inr rfl
    | cons n ns =>
      exact (le_pySlice it).bind fun _ _ => (Le.rfl' _).bind fun _ _ => (ih _).bind fun _ _ => .inr rfl

theorem le_pySelect (its : List PyItem) (shape : List Nat) :
    Le (pySelect .debug its shape) (pySelect .release its shape) :=
  (le_pyDims _ _).bind fun _ _ => .inr rfl

theorem Le.afterRead {α : Type} {h : Host} {t : Prim} {o : ByteOrder} {r q : ByteReader} {ext : Extents}
    {dst : List Byte} (k : List Byte → Outcome α) (hr : PLe (r ext dst) (q ext dst)) :
    Le ((valuesTo h t o r ext dst).1 >>= fun _ => k (valuesTo h t o r ext dst).2)
      ((valuesTo h t o q ext dst).1 >>= fun _ => k (valuesTo h t o q ext dst).2) := by
  rcases le_valuesTo (h := h) (t := t) (o := o) hr with ⟨f, hf⟩ | he
  · left; exact ⟨f, by rw [hf]; rfl⟩
  · right; rw [he]

theorem le_pyGetItem {h : Host} {ds : Dataset} {r q : ByteReader} (junk : Nat → Byte)
    (items : List PyItem) (hr : ∀ ext dst, PLe (r ext dst) (q ext dst)) :
    Le (pyGetItem .debug h ds r junk items) (pyGetItem .release h ds q junk items) := by
  unfold pyGetItem
  refine (le_pySelect _ _).bind fun x _ => ?_
  obtain ⟨i, c⟩ := x
  refine (Le.rfl' _).bind fun t _ => ?_
  refine (Le.rfl' _).bind fun n _ => (Le.rfl' _).bind fun ext _ => ?_
  exact Le.afterRead (fun b => ok (t, pyShape c, b)) (hr ext _)

theorem le_pyLen (g : GroupIndex) (hd : Option Name × Name) : Le (pyLen .debug g hd) (pyLen .release g hd) :=
  (Le.rfl' _).bind fun _ _ => (le_product64 _).bind fun _ _ => .inr rfl

theorem le_xrGetItem {narrow : List Byte → List Byte} {h : Host} {g : GroupIndex}
    {r q : Dataset → ByteReader} (junk : Nat → Byte) (sched : List Nat) (name : Name)
    (group : Option Name) (fill : Option PyScalar) (key : List PyItem)
    (hr : ∀ ds ext dst, PLe (r ds ext dst) (q ds ext dst)) :
    Le (xrGetItem .debug narrow h g r junk sched name group fill key)
      (xrGetItem .release narrow h g q junk sched name group fill key) := by
  unfold xrGetItem
  split
  · exact .inr rfl
  · refine (Le.rfl' _).bind fun ds _ => (le_pyGetItem _ _ (hr ds)).bind fun x _ => ?_
    exact .inr rfl

/-! ## Values, sizes, readers -/

theorem le_valuesUnstable {h : Host} {t : Prim} {ds : Dataset} {r q : ByteReader} {ext : Extents}
    (junk : Nat → Byte) (hr : ∀ dst, PLe (r ext dst) (q ext dst)) :
    Le (valuesUnstable .debug h t ds r ext junk) (valuesUnstable .release h t ds q ext junk) := by
  unfold valuesUnstable
  refine (Le.rfl' _).bind fun _ _ => (le_product64 _).bind fun _ _ => (le_mul64 _ _).bind fun b _ => ?_
  simp only
  exact (Le.rfl' _).bind fun _ _ => (le_mul64 _ _).bind fun _ _ => (Le.rfl' _).bind fun _ _ =>
    (Le.rfl' _).bind fun n _ => Le.afterRead (fun b => ok b) (hr _)

theorem le_valuesDynPar {h : Host} {t : Prim} {ds : Dataset} {r q : ByteReader} {ext : Extents}
    (junk : Nat → Byte) (hr : ∀ dst, PLe (r ext dst) (q ext dst)) :
    Le (valuesDynPar .debug h t ds r ext junk) (valuesDynPar .release h t ds q ext junk) := by
  unfold valuesDynPar
  refine (Le.rfl' _).bind fun dims _ => (le_product64 _).bind fun _ _ => (le_mul64 _ _).bind fun b _ => ?_
  simp only
  exact (Le.rfl' _).bind fun _ _ => (le_mul64 _ _).bind fun _ _ => (Le.rfl' _).bind fun _ _ =>
    (Le.rfl' _).bind fun n _ => Le.afterRead (fun b => ok (dims, b)) (hr _)

theorem le_size (ds : Dataset) : Le (ds.size .debug) (ds.size .release) := le_product64 _

theorem le_validAux (cs : List Nat) (l : List Chunk) :
    Le (Dataset.validAux .debug cs l) (Dataset.validAux .release cs l) := by
  induction l with
  | nil => exact .inr rfl
  | cons c l ih => exact (le_contains _ _ _).bind fun _ _ => (Le.rfl' _).bind fun _ _ => ih

theorem le_valid (ds : Dataset) : Le (ds.valid .debug) (ds.valid .release) := le_validAux _ _

theorem le_asReader (fs : Fs) (ds : Dataset) (path : Name) :
    Le (ds.asReader .debug fs path) (ds.asReader .release fs path) := by
  unfold Dataset.asReader
  split
  · exact .inr rfl
  · exact (le_withDataset _).bind fun _ _ => .inr rfl

theorem le_asStreamer (ds : Dataset) (path : Name) :
    Le (ds.asStreamer .debug path) (ds.asStreamer .release path) :=
  (le_chunkBytes _).bind fun _ _ => .inr rfl

theorem le_asParReader (ds : Dataset) (path : Name) :
    Le (ds.asParReader .debug path) (ds.asParReader .release path) :=
  (le_chunkBytes _).bind fun _ _ => .inr rfl

theorem le_reader (fs : Fs) (g : GroupIndex) (s : Name) : Le (g.reader .debug fs s) (g.reader .release fs s) := by
  unfold GroupIndex.reader
  split
  · exact .inr rfl
  split
  · exact le_asReader _ _ _
  · exact .inr rfl

theorem le_streamer (g : GroupIndex) (s : Name) : Le (g.streamer .debug s) (g.streamer .release s) := by
  unfold GroupIndex.streamer
  split
  · exact .inr rfl
  split
  · exact le_asStreamer _ _
  · exact .inr rfl

/-! ## Polls and sessions -/

theorem le_streamItem (rt : Rt) (io : Io) (file : List Byte) (ds : Dataset) (chunkSz : Nat)
    (factor : Outcome Nat) (conv : List Byte → Outcome (List Byte)) (lru : Lru) (b : BSlice) :
    Le (streamItem .debug rt io file ds chunkSz factor conv lru b)
      (streamItem .release rt io file ds chunkSz factor conv lru b) := by
  unfold streamItem
  refine (Le.rfl' _).bind fun x _ => (le_mul64 _ _).bind fun _ _ => (le_mul64 _ _).bind fun _ _ =>
    (le_debugAssert _).bind fun _ _ => ?_
  split
  · exact (le_debugAssert _).bind fun _ _ => (le_debugAssert _).bind fun _ _ => .inr rfl
  · exact (le_readChunkTokio _ _ _ _ _ _ _ _ _).bind fun _ _ => (Le.rfl' _).bind fun _ _ =>
      (le_debugAssert _).bind fun _ _ => (le_debugAssert _).bind fun _ _ => .inr rfl

theorem le_streamNew (ds : Dataset) (ext : Extents) : Le (streamNew .debug ds ext) (streamNew .release ds ext) :=
  (le_chunkBytes _).bind fun _ _ => (le_streamSlices _ _).bind fun _ _ => (Le.rfl' _).bind fun _ _ => .inr rfl

theorem le_resume (rt : Rt) (io : Io) (ds : Dataset) (chunkSz : Nat) (factor : Outcome Nat)
    (conv : List Byte → Outcome (List Byte)) (file : List Byte) (lru : Lru) (l : List BSlice) :
    (∃ f, (Gen.resume .debug rt io ds chunkSz factor conv file lru l).1 = some (.panic f)) ∨
    Gen.resume .debug rt io ds chunkSz factor conv file lru l =
      Gen.resume .release rt io ds chunkSz factor conv file lru l := by
  cases l with
  | nil => exact .inr rfl
  | cons b l =>
    dsimp only [Gen.resume]
    rcases le_streamItem rt io file ds chunkSz factor conv lru b with ⟨f, hf⟩ | h
    · rw [hf]; exact .inl ⟨f, rfl⟩
    · rw [h]; exact .inr rfl

theorem le_poll (rt : Rt) (io : Io) (ds : Dataset) (chunkSz : Nat) (factor : Outcome Nat)
    (conv : List Byte → Outcome (List Byte)) (file : Option (List Byte)) (g : Gen) :
    (∃ f, (g.poll .debug rt io ds chunkSz factor conv file).1 = some (.panic f)) ∨
    g.poll .debug rt io ds chunkSz factor conv file = g.poll .release rt io ds chunkSz factor conv file := by
  cases g with
  | fresh cap slices =>
    unfold Gen.poll
    cases file with
    | none => exact .inr rfl
    | some f => exact le_resume _ _ _ _ _ _ _ _ _
  | running lru slices =>
    unfold Gen.poll
    cases file with
    | some f => exact le_resume _ _ _ _ _ _ _ _ _
    | none =>
      cases slices with
      | nil => exact .inr rfl
      | cons b l =>
        simp only
        cases streamFetch ⟨lru, []⟩ b with
        | none => exact le_resume _ _ _ _ _ _ _ _ _
        | some r => exact .inr rfl
  | ended => exact .inr rfl
  | broken o => exact .inr rfl

theorem le_unsteady {σ β : Type} {f g : List Byte → σ → β → Outcome σ}
    (h : ∀ x s b, Le (f x s b) (g x s b)) (need : σ → β → Option (Nat × Nat)) (disk : Disk) (s : σ × Nat)
    (b : β) : Le (unsteady f need disk s b) (unsteady g need disk s b) := by
  unfold unsteady
  split
  · exact (h _ _ _).bind fun _ _ => .inr rfl
  split
  · exact .inr rfl
  · exact (h _ _ _).bind fun _ _ => .inr rfl

theorem le_directReadToU (io : Io) (disk : Disk) (ds : Dataset) (sort : List GItem → List GItem)
    (ext : Extents) (dst : List Byte) :
    PLe (directReadToU .debug io disk ds sort ext dst) (directReadToU .release io disk ds sort ext dst) := by
  unfold directReadToU
  rcases le_chunkBytes ds with ⟨f, h⟩ | h
  · rw [h]; left; exact ⟨f, by simp only [panic_bind]⟩
  rw [← h]
  cases chunkBytes .debug ds with
  | ok csz =>
    simp only [ok_bind]
    rcases le_reqBytes ds ext with ⟨f, h⟩ | h
    · rw [h]; left; exact ⟨f, by simp only [panic_bind]⟩
    rw [← h]
    cases reqBytes .debug ds ext with
    | ok vsz =>
      simp only [ok_bind]
      cases ensure (decide (vsz ≤ dst.length)) .capacity with
      | ok _ =>
        simp only [ok_bind]
        rcases le_groups ds ext sort with ⟨f, h⟩ | h
        · rw [h]; left; exact ⟨f, by simp only [panic_bind]⟩
        rw [← h]
        cases ds.groupChunkSlices .debug ext sort with
        | ok groups =>
          simp only [ok_bind]
          cases disk 0 with
          | none => right; simp only [err_bind]
          | some file =>
            simp only
            rcases le_loop (le_unsteady (fun x => le_directStep io x ds csz) directFetch disk)
              (⟨none, dst⟩, 1) groups with ⟨f, hf⟩ | hf
            · left; exact ⟨f, by rw [hf]; simp only [panic_bind]⟩
            · right; rw [hf]
        | _ => right; simp only [err_bind, panic_bind, ub_bind, diverge_bind]
      | _ => right; simp only [err_bind, panic_bind, ub_bind, diverge_bind]
    | _ => right; simp only [err_bind, panic_bind, ub_bind, diverge_bind]
  | _ => right; simp only [err_bind, panic_bind, ub_bind, diverge_bind]

theorem le_readToU (io : Io) (disk : Disk) (ds : Dataset) (rd : CacheReader) (ext : Extents)
    (dst : List Byte) :
    PLe (rd.readToU .debug io disk ds ext dst) (rd.readToU .release io disk ds ext dst) := by
  unfold CacheReader.readToU
  rcases le_reqBytes ds ext with ⟨f, h⟩ | h
  · rw [h]; left; exact ⟨f, by simp only [panic_bind]⟩
  rw [← h]
  cases reqBytes .debug ds ext with
  | ok vsz =>
    simp only [ok_bind]
    cases ensure (decide (vsz ≤ dst.length)) .capacity with
    | ok _ =>
      simp only [ok_bind]
      rcases le_chunkSlices ds ext with ⟨f, h⟩ | ⟨t, u, h1, h2, h3⟩ | ⟨h1, h2⟩
      · rw [h]; left; exact ⟨f, by simp only [panic_bind]⟩
      · rw [h1, h2]
        simp only [ok_bind]
        rcases le_loop_trace (le_unsteady (fun x => le_cacheStep io x ds rd.chunkSz) cacheFetch disk)
          (⟨rd.cache, 0, dst⟩, 0) h3 with ⟨e, he⟩ | ⟨e1, e2⟩ | ⟨e1, e2⟩
        · left
          refine ⟨e, ?_⟩
          simp only
          rw [← Outcome.bind_assoc, he]; simp only [panic_bind]
        · right; rw [e1, e2]
        · right
          rw [← e2]
          cases hl : (loop (unsteady (fun x => cacheStep .debug io x ds rd.chunkSz) cacheFetch disk)
            (⟨rd.cache, 0, dst⟩, 0) t.items).1 with
          | ok x => exact absurd hl e1
          | _ => simp only [err_bind, panic_bind, ub_bind, diverge_bind]
      · rw [← h2]
        cases h : ds.chunkSlices .debug ext with
        | ok t => exact absurd h (h1 t)
        | _ => right; simp only [err_bind, panic_bind, ub_bind, diverge_bind]
    | _ => right; simp only [err_bind, panic_bind, ub_bind, diverge_bind]
  | _ => right; simp only [err_bind, panic_bind, ub_bind, diverge_bind]

end Hidefix.Proofs
