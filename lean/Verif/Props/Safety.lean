import Verif.Proofs.Decode
import Verif.Props.Serde
import Verif.Props.Reading
import Verif.Model.Poll
import Verif.Model.S3
import Verif.Model.Xarray

/-!
# Property C70: undefined behaviour

The unsafe code of the crate: unchecked indexing in the shuffle filters (src/filters/shuffle.rs), pointer
casts of chunks (src/idx/chunk.rs), the raw copies of the parallel reader (src/reader/direct.rs). A model
function returns `ub` when an unchecked access would be outside its buffer, or when two threads write to
the same byte. Here no condition is put on the dataset, the file, the selection or the server.
-/

set_option autoImplicit false

namespace Hidefix.Props
open Hidefix Hidefix.Spec Hidefix.Proofs Outcome

section tools

theorem noUb_ok {α : Type} (a : α) : NoUb (ok a) := by simp [NoUb]
theorem noUb_err {α : Type} (e : Err) : NoUb (err e : Outcome α) := by simp [NoUb]
theorem noUb_panic {α : Type} (e : Fault) : NoUb (panic e : Outcome α) := by simp [NoUb]
theorem noUb_diverge {α : Type} : NoUb (diverge : Outcome α) := by simp [NoUb]
theorem noUb_add (p : Profile) (a b : Nat) : NoUb (add64 p a b) := by
  unfold add64; split
  · simp [NoUb]
  · cases p <;> simp [NoUb]
theorem noUb_sub (p : Profile) (a b : Nat) : NoUb (sub64 p a b) := by
  unfold sub64; split
  · simp [NoUb]
  · cases p <;> simp [NoUb]
theorem noUb_mul (p : Profile) (a b : Nat) : NoUb (mul64 p a b) := by
  unfold mul64; split
  · simp [NoUb]
  · cases p <;> simp [NoUb]
theorem noUb_dassert (p : Profile) (b : Bool) : NoUb (debugAssert p b) := (okp_debugAssert _ _).noUb
theorem noUb_assert (b : Bool) : NoUb (assertP b) := by unfold assertP; split <;> simp [NoUb]
theorem noUb_ensure (b : Bool) (e : Err) : NoUb (ensure b e) := by unfold ensure; split <;> simp [NoUb]
theorem noUb_alloc (n : Nat) : NoUb (allocOk n) := by unfold allocOk; split <;> simp [NoUb]
theorem noUb_at {α : Type} (l : List α) (i : Nat) : NoUb (Hidefix.index l i) := by
  unfold Hidefix.index; split <;> simp [NoUb]
theorem noUb_slice (l : List Byte) (a b : Nat) : NoUb (sliceOf l a b) := by
  unfold sliceOf; split <;> simp [NoUb]
theorem noUb_copyTo (d : List Byte) (a b : Nat) (s : List Byte) : NoUb (copyTo d a b s) := by
  unfold copyTo; split <;> simp [NoUb]
theorem noUb_foldlM {α β : Type} (f : β → α → Outcome β) (hf : ∀ b a, NoUb (f b a)) :
    ∀ (l : List α) (b : β), NoUb (l.foldlM f b)
  | [], b => by rw [List.foldlM_nil]; exact noUb_ok b
  | a :: l, b => by
    rw [List.foldlM_cons]
    exact (hf b a).bind fun b' => noUb_foldlM f hf l b'
theorem noUb_mapM {α β : Type} (f : α → Outcome β) (hf : ∀ a, NoUb (f a)) :
    ∀ l : List α, NoUb (l.mapM f)
  | [] => by rw [List.mapM_nil]; exact noUb_ok _
  | a :: l => by
    rw [List.mapM_cons]
    exact (hf a).bind fun b => (noUb_mapM f hf l).bind fun _ => noUb_ok _
theorem noUb_product (p : Profile) (l : List Nat) : NoUb (product64 p l) :=
  noUb_foldlM _ (fun _ _ => noUb_mul _ _ _) _ _
theorem noUb_strengthReduce (l : List Nat) : NoUb (strengthReduce l) := by
  unfold strengthReduce; split <;> simp [NoUb]
theorem noUb_expect {α : Type} (o : Option α) : NoUb (expectSome o) := by
  cases o <;> simp [expectSome, NoUb]

theorem noUb_ite {α : Type} {c : Prop} [Decidable c] {a b : Outcome α} (ha : NoUb a) (hb : NoUb b) :
    NoUb (if c then a else b) := by split <;> assumption

/-- One step of `noub`. -/
macro "noub1" : tactic => `(tactic| (first
  | with_reducible assumption | with_reducible exact noUb_ok _ | with_reducible exact noUb_err _ | with_reducible exact noUb_panic _ | with_reducible exact noUb_diverge
  | with_reducible exact noUb_add _ _ _ | with_reducible exact noUb_sub _ _ _ | with_reducible exact noUb_mul _ _ _ | with_reducible exact noUb_dassert _ _
  | with_reducible exact noUb_assert _ | with_reducible exact noUb_ensure _ _ | with_reducible exact noUb_alloc _ | with_reducible exact noUb_at _ _
  | with_reducible exact noUb_slice _ _ _ | with_reducible exact noUb_copyTo _ _ _ _ | with_reducible exact noUb_product _ _
  | with_reducible exact noUb_strengthReduce _ | with_reducible exact noUb_expect _ | with_reducible exact noUb_decodeChunk _ _ _ _ _ _ _
  | with_reducible exact noUb_readChunk _ _ _ _ _ _ _ _ _
  | with_reducible refine NoUb.bind ?_ fun _ => ?_ | with_reducible refine noUb_ite ?_ ?_ | split))

/-- Closes goals `NoUb (..)` about sequences of operations that have no undefined behaviour. -/
macro "noub" : tactic => `(tactic| repeat' noub1)

end tools

/-! ## Slicing -/

theorem noUb_exceeds (p : Profile) : ∀ a b c : List Nat, NoUb (exceeds p a b c)
  | i :: is, c :: cs, s :: ss => by
    have := noUb_exceeds p is cs ss
    unfold exceeds; noub
  | [], _, _ => by unfold exceeds; noub
  | _ :: _, [], _ => by unfold exceeds; noub
  | _ :: _, _ :: _, [] => by unfold exceeds; noub

theorem noUb_canonicalise (dims : List Nat) (e : Extents) : NoUb (e.canonicalise dims) := by
  unfold Extents.canonicalise; noub

theorem noUb_countUnwrap (e : Extent) : NoUb e.countUnwrap := by
  unfold Extent.countUnwrap; noub

theorem noUb_getCounts (e : Extents) (dims : List Nat) : NoUb (e.getCounts dims) := by
  unfold Extents.getCounts
  exact (noUb_canonicalise _ _).bind fun _ => noUb_mapM _ noUb_countUnwrap _

theorem noUb_getStartCountSized (e : Extents) (dims : List Nat) :
    NoUb (e.getStartCountSized dims) := by
  unfold Extents.getStartCountSized Extents.getStartCount
  have h1 := noUb_canonicalise dims e
  have h2 : ∀ l, NoUb (List.mapM Extent.countUnwrap l) := noUb_mapM _ noUb_countUnwrap
  repeat' (first | exact h1 | exact h2 _ | noub1)

theorem noUb_slicerNew (p : Profile) (ds : Dataset) (i c : List Nat) : NoUb (Slicer.new p ds i c) := by
  have := noUb_exceeds p i c ds.shape
  unfold Slicer.new; noub

theorem noUb_chunkSlicer (p : Profile) (ds : Dataset) (e : Extents) : NoUb (ds.chunkSlicer p e) := by
  unfold Dataset.chunkSlicer
  have h1 := noUb_getStartCountSized e ds.shape
  have h2 := noUb_exceeds p
  have h3 := noUb_slicerNew p ds
  have h4 : ∀ x : List Nat × List Nat, NoUb (do
      let oob ← exceeds p x.1 x.2 ds.shape
      if (oob || x.2.any fun c => c == 0) = true then ok (Slicer.empty ds)
      else Slicer.new p ds x.1 x.2) := by
    intro x
    refine (h2 _ _ _).bind fun _ => ?_
    split
    · noub
    · exact h3 _ _
  simp only
  split
  · exact (noUb_panic _).bind fun x => h4 x
  · exact h1.bind fun x => h4 x

theorem noUb_chunkIndexAux (p : Profile) : ∀ (acc : Nat) (a b c : List Nat),
    NoUb (chunkIndexAux p acc a b c)
  | acc, i :: is, c :: cs, s :: ss => by
    have := fun acc => noUb_chunkIndexAux p acc is cs ss
    unfold chunkIndexAux
    repeat' (first | exact this _ | noub1)
  | _, [], _, _ => by unfold chunkIndexAux; noub
  | _, _ :: _, [], _ => by unfold chunkIndexAux; noub
  | _, _ :: _, _ :: _, [] => by unfold chunkIndexAux; noub

theorem noUb_chunkAtCoord (p : Profile) (ds : Dataset) (x : List Nat) : NoUb (ds.chunkAtCoord p x) := by
  unfold Dataset.chunkAtCoord
  have := noUb_chunkIndexAux p 0 x ds.chunkShapeReduced ds.scaledDimSz
  noub

theorem noUb_containsAux (p : Profile) : ∀ a b c : List Nat, NoUb (Chunk.containsAux p a b c)
  | i :: is, c :: cs, s :: ss => by
    have := noUb_containsAux p is cs ss
    unfold Chunk.containsAux; noub
  | [], _, _ => by unfold Chunk.containsAux; noub
  | _ :: _, [], _ => by unfold Chunk.containsAux; noub
  | _ :: _, _ :: _, [] => by unfold Chunk.containsAux; noub

theorem noUb_contains (p : Profile) (c : Chunk) (i s : List Nat) : NoUb (c.contains p i s) := by
  unfold Chunk.contains
  have := noUb_containsAux p
  repeat' (first | exact this _ _ _ | noub1)

theorem noUb_chunkStartAux (p : Profile) : ∀ (acc : Nat) (a b c : List Nat),
    NoUb (chunkStartAux p acc a b c)
  | acc, i :: is, c :: cs, s :: ss => by
    have := fun acc => noUb_chunkStartAux p acc is cs ss
    unfold chunkStartAux
    repeat' (first | exact this _ | noub1)
  | _, [], _, _ => by unfold chunkStartAux; noub
  | _, _ :: _, [], _ => by unfold chunkStartAux; noub
  | _, _ :: _, _ :: _, [] => by unfold chunkStartAux; noub

theorem noUb_addAll (p : Profile) : ∀ a b : List Nat, NoUb (addAll p a b)
  | i :: is, o :: os => by
    have := noUb_addAll p is os
    unfold addAll; noub
  | [], _ => by unfold addAll; noub
  | _ :: _, [] => by unfold addAll; noub

theorem noUb_carryRest (p : Profile) : ∀ (c : Nat) (l : List Lane), NoUb (carryRest p c l)
  | _, [] => by unfold carryRest; noub
  | c, l :: ls => by
    have := fun c => noUb_carryRest p c ls
    unfold carryRest
    repeat' (first | exact this _ | noub1)

theorem noUb_cutSize (p : Profile) (l : Lane) : NoUb (cutSize p l) := by unfold cutSize; noub

theorem noUb_walk (p : Profile) (stop : Nat) : ∀ (c a s : Nat) (l : List Lane), NoUb (walk p stop c a s l)
  | _, _, _, [] => by unfold walk; noub
  | c, a, s, l :: ls => by
    have h1 := fun c a s => noUb_walk p stop c a s ls
    have h2 := noUb_carryRest p
    have h3 := noUb_cutSize p l
    unfold walk
    repeat' (first | exact h1 _ _ _ | exact h2 _ _ | exact h3 | noub1)

theorem noUb_next (p : Profile) (ds : Dataset) (s : Slicer) : NoUb (s.next p ds) := by
  unfold Slicer.next
  have h1 := noUb_addAll p
  have h2 := noUb_chunkAtCoord p ds
  have h3 := noUb_contains p
  have h4 := noUb_chunkStartAux p
  have h5 := noUb_walk p
  repeat' (first | exact h1 _ _ | exact h2 _ | exact h3 _ _ _ | exact h4 _ _ _ _ |
    exact h5 _ _ _ _ _ | noub1)

theorem noUb_trace (p : Profile) (ds : Dataset) : ∀ (n : Nat) (s : Slicer),
    NoUb (s.trace p ds n).ending
  | 0, s => by unfold Slicer.trace; noub
  | n + 1, s => by
    unfold Slicer.trace
    have := noUb_next p ds s
    split
    · noub
    · exact noUb_trace p ds n _
    · noub
    · noub
    · rename_i h; exact absurd h this
    · noub

theorem noUb_chunkSlices (p : Profile) (ds : Dataset) (e : Extents) :
    NoUb (ds.chunkSlices p e) ∧ ∀ t, ds.chunkSlices p e = ok t → NoUb t.ending := by
  unfold Dataset.chunkSlices
  refine ⟨(noUb_chunkSlicer p ds e).bind fun _ => noUb_ok _, fun t h => ?_⟩
  obtain ⟨s, -, h⟩ := bind_eq_ok.1 h
  injection h with h
  subst h
  exact noUb_trace _ _ _ _

theorem noUb_groupScan (p : Profile) : ∀ (n : Nat) (l : List Item), NoUb (groupScan p n l)
  | _, [] => by unfold groupScan; noub
  | n, a :: l => by
    have := fun n => noUb_groupScan p n l
    unfold groupScan
    repeat' (first | exact this _ | noub1)

/-- `NoUb.bind` that remembers where the value comes from. -/
theorem NoUb.bindEq {α β : Type} {x : Outcome α} {f : α → Outcome β} (hx : NoUb x)
    (hf : ∀ a, x = ok a → NoUb (f a)) : NoUb (x >>= f) := by
  cases x with
  | ok a => exact hf a rfl
  | ub => exact absurd rfl hx
  | _ => simp [NoUb]

theorem noUb_groupUnsorted (p : Profile) (ds : Dataset) (e : Extents) : NoUb (ds.groupUnsorted p e) := by
  unfold Dataset.groupUnsorted
  obtain ⟨h1, h2⟩ := noUb_chunkSlices p ds e
  refine NoUb.bindEq h1 fun t ht => (noUb_groupScan _ _ _).bind fun _ => (h2 t ht).bind fun _ => ?_
  noub

theorem noUb_groupChunkSlices (p : Profile) (ds : Dataset) (e : Extents) (s : List GItem → List GItem) :
    NoUb (ds.groupChunkSlices p e s) := by
  unfold Dataset.groupChunkSlices
  exact (noUb_groupUnsorted p ds e).bind fun _ => noUb_ok _

theorem noUb_chunkBytes (p : Profile) (ds : Dataset) : NoUb (chunkBytes p ds) := by
  unfold chunkBytes; noub

theorem noUb_reqBytes (p : Profile) (ds : Dataset) (e : Extents) : NoUb (reqBytes p ds e) := by
  have := noUb_getCounts e ds.shape
  unfold reqBytes; noub

theorem noUb_loop {σ β : Type} (f : σ → β → Outcome σ) (hf : ∀ s b, NoUb (f s b)) :
    ∀ (l : List β) (s : σ), NoUb (loop f s l).1
  | [], s => by unfold loop; noub
  | b :: l, s => by
    unfold loop
    have := hf s b
    split
    · exact noUb_loop f hf l _
    · noub
    · noub
    · rename_i h; exact absurd h this
    · noub

/-! ## Local readers -/

theorem noUb_directStep (p : Profile) (io : Io) (file : List Byte) (ds : Dataset) (csz : Nat)
    (s : DirectSt) (g : GItem) : NoUb (directStep p io file ds csz s g) := by
  unfold directStep directChunk; noub

theorem noUb_cacheStep (p : Profile) (io : Io) (file : List Byte) (ds : Dataset) (csz : Nat)
    (s : CacheSt) (it : Item) : NoUb (cacheStep p io file ds csz s it) := by
  unfold cacheStep; noub

theorem noUb_unsteady {σ β : Type} {step : List Byte → σ → β → Outcome σ}
    {need : σ → β → Option (Nat × Nat)} {disk : Disk} (h : ∀ f s b, NoUb (step f s b))
    (s : σ × Nat) (b : β) : NoUb (unsteady step need disk s b) := by
  unfold unsteady
  repeat' (first | exact h _ _ _ | noub1)

/-- C70: reading with `Direct::read_to` and with a `CacheReader` (in any state whatsoever) is never undefined
behaviour: for every dataset, including malformed ones, every file, selection and destination, in
debug and in release builds, even if the file changes or fails while it is read. -/
theorem C70_local (p : Profile) (io : Io) (file : List Byte) (disk : Disk) (ds : Dataset)
    (sort : List GItem → List GItem) (rd : CacheReader) (ext : Extents) (dst : List Byte) :
    (directReadTo p io ds sort ext dst).1 ≠ ub ∧ (rd.readTo p io file ds ext dst).1 ≠ ub ∧
    (directReadToU p io disk ds sort ext dst).1 ≠ ub ∧ (rd.readToU p io disk ds ext dst).1 ≠ ub := by
  have h1 := noUb_chunkBytes p ds
  have h2 := noUb_reqBytes p ds ext
  have h3 := noUb_groupChunkSlices p ds ext sort
  obtain ⟨h4, h5⟩ := noUb_chunkSlices p ds ext
  have hpre : ∀ {α : Type} {x : Outcome α} (_ : NoUb x) (n : Nat), NoUb (x >>= fun _ => ok n) :=
    fun h n => h.bind fun _ => noUb_ok n
  have hc : NoUb (do
      let vsz ← reqBytes p ds ext
      ensure (decide (vsz ≤ dst.length)) .capacity
      let t ← ds.chunkSlices p ext
      ok (vsz, t) : Outcome (Nat × Trace Item)) := by noub
  have hend : ∀ {vsz t}, (do
      let vsz ← reqBytes p ds ext
      ensure (decide (vsz ≤ dst.length)) .capacity
      let t ← ds.chunkSlices p ext
      ok (vsz, t) : Outcome (Nat × Trace Item)) = ok (vsz, t) → NoUb t.ending := by
    intro vsz t h
    obtain ⟨_, -, h⟩ := bind_eq_ok.1 h
    obtain ⟨_, -, h⟩ := bind_eq_ok.1 h
    obtain ⟨t', ht, h⟩ := bind_eq_ok.1 h
    injection h with h
    obtain ⟨-, rfl⟩ := Prod.mk.inj h
    exact h5 _ ht
  refine ⟨?_, ?_, ?_, ?_⟩
  · unfold directReadTo
    simp only
    split
    · exact NoUb.bind (noUb_loop _ (noUb_directStep _ _ _ _ _) _ _) fun _ => noUb_ok _
    · refine hpre ?_ 0
      noub
  · unfold CacheReader.readTo
    simp only
    split
    · rename_i h
      exact NoUb.bind (noUb_loop _ (noUb_cacheStep _ _ _ _ _) _ _) fun _ =>
        (hend h).bind fun _ => noUb_ok _
    · exact hpre hc 0
  · unfold directReadToU
    simp only
    split
    · exact NoUb.bind (noUb_loop _ (noUb_unsteady fun f s b => noUb_directStep _ _ _ _ _ _ _) _ _)
        fun _ => noUb_ok _
    · refine hpre ?_ 0
      noub
  · unfold CacheReader.readToU
    simp only
    split
    · rename_i h
      exact NoUb.bind (noUb_loop _ (noUb_unsteady fun f s b => noUb_cacheStep _ _ _ _ _ _ _) _ _)
        fun _ => (hend h).bind fun _ => noUb_ok _
    · exact hpre hc 0

/-! ## Streams -/

theorem noUb_xdrFactor (t : Datatype) : NoUb (xdrFactor t) := by unfold xdrFactor; noub

theorem noUb_castOk (t : Prim) (l : List Byte) : NoUb (castOk t l) := noUb_ensure _ _

theorem noUb_xdrWord (h : Host) (t : Prim) (o : ByteOrder) (w : List Byte) :
    NoUb (xdrWord h t o w) := by unfold xdrWord toNativeOne; noub

theorem noUb_xdr (h : Host) (l : List Byte) (t : Datatype) (o : ByteOrder) : NoUb (xdr h l t o) := by
  have h1 := noUb_castOk
  have h2 : ∀ t l, NoUb (List.mapM (xdrWord h t o) l) := fun t => noUb_mapM _ (noUb_xdrWord h t o)
  unfold xdr xdrCastSlice toBigESized
  repeat' (first | exact h1 _ _ | exact h2 _ _ | noub1)

theorem noUb_streamItem (p : Profile) (rt : Rt) (io : Io) (file : List Byte) (ds : Dataset) (csz : Nat)
    {factor : Outcome Nat} {conv : List Byte → Outcome (List Byte)} (hf : NoUb factor)
    (hc : ∀ l, NoUb (conv l)) (lru : Lru) (b : BSlice) :
    NoUb (streamItem p rt io file ds csz factor conv lru b) := by
  unfold streamItem readChunkTokio readRaw blockInPlace
  repeat' (first | exact hc _ | noub1)

theorem noUb_streamSlices (p : Profile) (ds : Dataset) (e : Extents) : NoUb (streamSlices p ds e) := by
  unfold streamSlices
  obtain ⟨h1, h2⟩ := noUb_chunkSlices p ds e
  refine NoUb.bindEq h1 fun t ht => NoUb.bind ?_ fun _ => (h2 t ht).bind fun _ => noUb_ok _
  exact noUb_mapM _ (fun it => by unfold bslice; noub) _

theorem noUb_streamNew (p : Profile) (ds : Dataset) (e : Extents) : NoUb (streamNew p ds e) := by
  unfold streamNew lruCap
  have h1 := noUb_chunkBytes p ds
  have h2 := noUb_streamSlices p ds e
  noub

/-- A generator that has not met undefined behaviour. -/
def Sound : _root_.Hidefix.Gen → Prop
  | .broken o => NoUb o
  | _ => True

theorem sound_resume (p : Profile) (rt : Rt) (io : Io) (ds : Dataset) (csz : Nat)
    {factor : Outcome Nat} {conv : List Byte → Outcome (List Byte)} (hf : NoUb factor)
    (hc : ∀ l, NoUb (conv l)) (file : List Byte) (lru : Lru) (l : List BSlice) :
    (Gen.resume p rt io ds csz factor conv file lru l).1 ≠ some ub ∧
    Sound (Gen.resume p rt io ds csz factor conv file lru l).2.1 := by
  cases l with
  | nil => exact ⟨by simp [Gen.resume], trivial⟩
  | cons b bs =>
    have := noUb_streamItem p rt io file ds csz hf hc lru b
    unfold Gen.resume
    simp only
    split
    · exact ⟨by simp, trivial⟩
    · exact ⟨by simp, trivial⟩
    · exact ⟨by simp, noUb_panic _⟩
    · rename_i h; exact absurd h this
    · exact ⟨by simp, noUb_diverge⟩

theorem sound_poll (p : Profile) (rt : Rt) (io : Io) (ds : Dataset) (csz : Nat)
    {factor : Outcome Nat} {conv : List Byte → Outcome (List Byte)} (hf : NoUb factor)
    (hc : ∀ l, NoUb (conv l)) (file : Option (List Byte)) {g : _root_.Hidefix.Gen} (hg : Sound g) :
    (g.poll p rt io ds csz factor conv file).1 ≠ some ub ∧
    Sound (g.poll p rt io ds csz factor conv file).2.1 := by
  have H := sound_resume p rt io ds csz hf hc
  cases g with
  | fresh cap l =>
    unfold Gen.poll
    cases file with
    | none => exact ⟨by simp, trivial⟩
    | some f => exact H _ _ _
  | running lru l =>
    unfold Gen.poll
    cases file with
    | some f => exact H _ _ _
    | none =>
      simp only
      cases l with
      | nil => exact ⟨by simp, trivial⟩
      | cons b bs =>
        simp only
        split
        · exact H _ _ _
        · exact ⟨by simp, trivial⟩
  | ended => exact ⟨by simp [Gen.poll], trivial⟩
  | broken o =>
    refine ⟨?_, hg⟩
    intro h
    injection h with h
    exact hg h

theorem sound_polls (p : Profile) (rt : Rt) (io : Io) (ds : Dataset) (csz : Nat)
    {factor : Outcome Nat} {conv : List Byte → Outcome (List Byte)} (hf : NoUb factor)
    (hc : ∀ l, NoUb (conv l)) : ∀ (disks : List (Option (List Byte))) {g : _root_.Hidefix.Gen},
    Sound g → ∀ a ∈ g.polls p rt io ds csz factor conv disks, a.1 ≠ some ub
  | [], g, _, a, ha => by simp [Gen.polls] at ha
  | d :: disks, g, hg, a, ha => by
    obtain ⟨h1, h2⟩ := sound_poll p rt io ds csz hf hc d hg
    rcases List.mem_cons.1 ha with rfl | ha
    · exact h1
    · exact sound_polls p rt io ds csz hf hc disks h2 a ha

/-- C70: neither creating a stream nor any poll of it is undefined behaviour, plain or XDR, whatever the
dataset, the selection, the runtime and the content of the file at each poll. -/
theorem C70_stream (p : Profile) (rt : Rt) (h : Host) (io : Io) (ds : Dataset) (ext : Extents)
    (disks : List (Option (List Byte))) :
    (streamPolls p rt io ds ext disks ≠ ub ∧
      ∀ l, streamPolls p rt io ds ext disks = ok l → ∀ a ∈ l, a.1 ≠ some ub) ∧
    (streamXdrPolls p rt h io ds ext disks ≠ ub ∧
      ∀ l, streamXdrPolls p rt h io ds ext disks = ok l → ∀ a ∈ l, a.1 ≠ some ub) := by
  have h1 := noUb_streamNew p ds ext
  have hs : ∀ {csz g}, streamNew p ds ext = ok (csz, g) → Sound g := by
    intro csz g hn
    unfold streamNew at hn
    obtain ⟨_, -, hn⟩ := bind_eq_ok.1 hn
    obtain ⟨_, -, hn⟩ := bind_eq_ok.1 hn
    obtain ⟨_, -, hn⟩ := bind_eq_ok.1 hn
    injection hn with hn
    obtain ⟨-, rfl⟩ := Prod.mk.inj hn
    trivial
  refine ⟨⟨?_, fun l hl => ?_⟩, ?_, fun l hl => ?_⟩
  · exact h1.bind fun _ => noUb_ok _
  · obtain ⟨⟨csz, g⟩, hn, hl⟩ := bind_eq_ok.1 hl
    injection hl with hl
    subst hl
    exact sound_polls p rt io ds csz (noUb_ok _) (fun _ => noUb_ok _) disks (hs hn)
  · exact h1.bind fun _ => noUb_ok _
  · obtain ⟨⟨csz, g⟩, hn, hl⟩ := bind_eq_ok.1 hl
    injection hl with hl
    subst hl
    exact sound_polls p rt io ds csz (noUb_xdrFactor _) (fun _ => noUb_xdr _ _ _ _) disks (hs hn)

/-! ## S3 -/

theorem noUb_requestStep (p : Profile) (acc : List Request) (g : GItem) : NoUb (requestStep p acc g) := by
  unfold requestStep newRequest coalesces; noub

theorem noUb_fetch (p : Profile) (server : Server) (r : Request) : NoUb (fetch p server r) := by
  unfold fetch; noub

theorem noUb_s3Step (p : Profile) (inflate : List Byte → Option (List Byte)) (ds : Dataset) (csz : Nat)
    (server : Server) (s : S3St) (o : S3Op) : NoUb (s3Step p inflate ds csz server s o) := by
  have := noUb_fetch p server
  cases o <;> unfold s3Step <;> repeat' (first | exact this _ | noub1)

/-- C70: a read from S3 is never undefined behaviour, whatever the server answers and in whatever order
the requests complete, from any runtime. -/
theorem C70_s3 (p : Profile) (inflate : List Byte → Option (List Byte)) (ds : Dataset)
    (sort : List GItem → List GItem) (server : Server) (complete : List Request → List Request)
    (ext : Extents) (dst : List Byte) (rt : Rt) :
    blockOn rt (s3ReadTo p inflate ds sort server complete ext dst).1 ≠ ub := by
  have h1 := noUb_chunkBytes p ds
  have h2 := noUb_reqBytes p ds ext
  have h3 := noUb_groupChunkSlices p ds ext sort
  have h4 : ∀ l, NoUb (groupRequests p l) := fun l => noUb_foldlM _ (noUb_requestStep p) _ _
  have hpre : NoUb (s3Prelude p ds sort ext dst.length) := by
    unfold s3Prelude
    repeat' (first | exact h4 _ | noub1)
  have : NoUb (s3ReadTo p inflate ds sort server complete ext dst).1 := by
    unfold s3ReadTo
    split
    · exact NoUb.bind (noUb_loop _ (noUb_s3Step _ _ _ _ _) _ _) fun _ => noUb_ok _
    · exact hpre.bind fun _ => noUb_ok _
  change NoUb _
  unfold blockOn drive blockInPlace
  noub

/-! ## Parallel reads, typed values -/

/-- C70 for the parallel reader: in a debug build it is never undefined behaviour, for every dataset,
file, selection, destination and schedule; in a release build if the selection is good (`Checked`).
Missing: release builds and the selections that the slicer gets wrong (`not_C14`). -/
theorem C70_par_partial {p : Profile} {io : Io} {ds : Dataset} {ext : Extents}
    {sort : List GItem → List GItem} (hk : Checked p ds ext)
    (hsort : ∀ l, SortedByAddr l (sort l)) (dst : List Byte)
    (res : Outcome Nat × List Byte) (hres : DirectReadToPar p io ds sort ext dst res) : res.1 ≠ ub :=
  C14_partial hk hsort dst res hres

/-- C70: typed values add nothing: if the underlying reader is never undefined behaviour, neither are
`values` and `values_dyn_par`, nor `__getitem__` of the Python class. -/
theorem C70_values (p : Profile) (h : Host) (t : Prim) (ds : Dataset) (rd : ByteReader) (ext : Extents)
    (junk : Nat → Byte) (items : List PyItem) (hrd : ∀ e d, (rd e d).1 ≠ ub) :
    values p h t ds rd ext ≠ ub ∧ valuesDynPar p h t ds rd ext junk ≠ ub ∧
    pyGetItem p h ds rd junk items ≠ ub := by
  have h1 := noUb_getCounts ext ds.shape
  have h2 : ∀ t e d, NoUb (valuesTo h t ds.order rd e d).1 := by
    intro t e d
    unfold valuesTo
    have := hrd e d
    split
    · noub
    · exact this
  have h3 : ∀ (its : List PyItem) (dims : List Nat), NoUb (pyDims p its dims) := by
    intro its
    induction its with
    | nil => intro _; unfold pyDims; noub
    | cons it its ih =>
      intro dims
      unfold pyDims pySlice isizeSucc pyDim
      repeat' (first | with_reducible exact ih _ | noub1)
  refine ⟨?_, ?_, ?_⟩ <;> change NoUb _
  · unfold values
    repeat' (first | with_reducible exact h2 _ _ _ | noub1)
  · unfold valuesDynPar
    repeat' (first | with_reducible exact h2 _ _ _ | noub1)
  · unfold pyGetItem pySelect pyPrim Extents.ofStartsCounts
    repeat' (first | with_reducible exact h2 _ _ _ | with_reducible exact h3 _ _ | noub1)

/-- C70: nor are `values` of builds with the feature `unstable`, `apply_fill_value` of the Python class, and
indexing through the xarray backend, with any group, name, key and fill value. -/
theorem C70_python (p : Profile) (h : Host) (t : Prim) (ds : Dataset) (rd : Dataset → ByteReader)
    (ext : Extents) (junk : Nat → Byte) (narrow : List Byte → List Byte) (g : GroupIndex)
    (sched : List Nat) (name : Name) (group : Option Name) (fill : Option PyScalar) (key : List PyItem)
    (cond fv : PyScalar) (bytes : List Byte) (hrd : ∀ ds e d, (rd ds e d).1 ≠ ub) :
    valuesUnstable p h t ds (rd ds) ext junk ≠ ub ∧
    pyApplyFill narrow h sched t cond fv bytes ≠ ub ∧
    xrGetItem p narrow h g rd junk sched name group fill key ≠ ub := by
  have h1 := noUb_getCounts ext ds.shape
  have h2 : ∀ e d, NoUb (valuesTo h t ds.order (rd ds) e d).1 := by
    intro e d
    unfold valuesTo
    have := hrd ds e d
    split
    · noub
    · exact this
  have h3 : ∀ t x, NoUb (extractAs narrow t x) := by
    intro t x
    cases t <;> unfold extractAs <;> noub
  have h4 : ∀ t c f b, NoUb (pyApplyFill narrow h sched t c f b) := by
    intro t c f b
    unfold pyApplyFill applyFillValue
    repeat' (first | with_reducible exact h3 _ _ | noub1)
  refine ⟨?_, h4 _ _ _ _, ?_⟩ <;> change NoUb _
  · unfold valuesUnstable
    repeat' (first | with_reducible exact h2 _ _ | noub1)
  · have h5 : ∀ hd, NoUb (pyHandle g hd) := by intro hd; unfold pyHandle; noub
    have h6 : ∀ ds, NoUb (pyGetItem p h ds (rd ds) junk key) := fun ds =>
      (C70_values p h .u8 ds (rd ds) .all junk key (hrd ds)).2.2
    unfold xrGetItem
    repeat' (first | with_reducible exact h4 _ _ _ _ | with_reducible exact h5 _ |
      with_reducible exact h6 _ | noub1)

/-- The hypothesis on the readers is met by `Direct::read_to` and any file. -/
example (p : Profile) (h : Host) (io : Io) (junk : Nat → Byte) (narrow : List Byte → List Byte)
    (g : GroupIndex) (fill : Option PyScalar) (key : List PyItem) :
    xrGetItem p narrow h g (fun ds e d => directReadTo p io ds sortByAddr e d) junk [] [97] none fill key ≠
      ub :=
  (C70_python p h .u8 Demo.ds _ .all junk narrow g [] [97] none fill key pyNan pyNan []
    fun ds e d => (C70_local p io [] (fun _ => none) ds sortByAddr ⟨0, ⟨1, []⟩⟩ e d).1).2.2

/-! ## Filters -/

theorem noUb_copyLoop {a b : Nat} {tgt from_ : Nat → Nat → Nat} {src dest : List Byte}
    (ht : ∀ i j, i < a → j < b → tgt i j < dest.length)
    (hf : ∀ i j, i < a → j < b → from_ i j < src.length) : NoUb (copyLoop a b tgt from_ src dest) := by
  unfold copyLoop
  have hmem : ∀ q ∈ (List.range a).flatMap fun i => (List.range b).map fun j => (i, j),
      q.1 < a ∧ q.2 < b := by
    intro q hq
    obtain ⟨i, hi, hq⟩ := List.mem_flatMap.1 hq
    obtain ⟨j, hj, rfl⟩ := List.mem_map.1 hq
    exact ⟨List.mem_range.1 hi, List.mem_range.1 hj⟩
  revert hmem
  generalize ((List.range a).flatMap fun i => (List.range b).map fun j => (i, j)) = l
  intro hmem
  suffices H : ∀ d : List Byte, d.length = dest.length → NoUb (l.foldlM
      (fun d ij => copyByte src d (tgt ij.1 ij.2) (from_ ij.1 ij.2)) d) from H dest rfl
  induction l with
  | nil => intro d _; rw [List.foldlM_nil]; exact noUb_ok d
  | cons q l ih =>
    intro d hd
    obtain ⟨h1, h2⟩ := hmem q (by simp)
    have e1 := ht _ _ h1 h2
    have e2 := hf _ _ h1 h2
    rw [List.foldlM_cons]
    have : copyByte src d (tgt q.1 q.2) (from_ q.1 q.2) =
        ok (d.set (tgt q.1 q.2) (src[from_ q.1 q.2]'e2)) := by
      unfold copyByte
      rw [List.getElem?_eq_getElem e2]
      simp only
      rw [if_pos (by omega)]
    rw [this, ok_bind]
    exact ih (fun q hq => hmem q (List.mem_cons_of_mem _ hq)) _ (by simp [hd])

/-- C70: the unchecked indexing of the shuffle filters stays inside both buffers, for every word size and
all lengths whatsoever (also ones that do not match or are not multiples of the word size). -/
theorem C70_filters (w : Nat) (src dest : List Byte) :
    shuffle w src dest ≠ ub ∧ unshuffle w src dest ≠ ub ∧ unshuffleStructured w src dest ≠ ub ∧
    unshuffleSized src w ≠ ub := by
  have hm : ∀ n : Nat, w * (n / w) ≤ n := fun n => Nat.mul_div_le n w
  have hm' : ∀ n : Nat, n / w * w ≤ n := fun n => Nat.div_mul_le_self n w
  refine ⟨?_, ?_, ?_, ?_⟩ <;> change NoUb _
  · unfold shuffle assertP
    simp only
    split
    · rename_i h
      have h : dest.length = src.length := by simpa using h
      rw [ok_bind]
      refine noUb_copyLoop (fun i j hi hj => ?_) fun i j hi hj => ?_
      · have := pos_lt' hi hj; have := hm src.length; omega
      · have := pos_lt' hj hi; have := hm' src.length; omega
    · exact noUb_panic _
  · unfold unshuffle assertP
    simp only
    split
    · rename_i h
      have h : dest.length = src.length := by simpa using h
      rw [ok_bind]
      refine noUb_copyLoop (fun i j hi hj => ?_) fun i j hi hj => ?_
      · have := pos_lt' hj hi; have := hm' dest.length; omega
      · have := pos_lt' hi hj; have := hm dest.length; omega
    · exact noUb_panic _
  · unfold unshuffleStructured
    refine NoUb.bindEq (noUb_assert _) fun _ h => ?_
    have h : src.length = dest.length := by
      unfold assertP at h
      split at h
      · rename_i h'; simpa using h'
      · simp at h
    split
    · exact noUb_panic _
    refine (noUb_assert _).bind fun _ => ?_
    refine noUb_copyLoop (fun i j hi hj => ?_) fun i j hi hj => ?_
    · have := pos_lt' hi hj; have := hm' src.length; omega
    · have := pos_lt' hj hi; have := hm src.length; omega
  · rcases unshuffleSized_okp src w with ⟨d, h, -⟩ | ⟨f, h⟩ <;> simp [NoUb, h]

/-- Ten bytes as words of four: refused, not out of bounds. -/
example : ∃ f, unshuffleStructured 4 (List.replicate 10 1) (List.replicate 10 0) = panic f :=
  ⟨.assertion, by decide⟩

/-! ## Indexing, loading -/

/-- C70: indexing is never undefined behaviour, whatever HDF5 answers about a dataset (`records` and `dtype`
are those answers: values or errors); nor is loading an index from any bytes. -/
theorem C70_index (p : Profile) (hd : H5Dataset) (hr : hd.records ≠ ub) (ht : hd.dtype ≠ ub)
    (bs : List Byte) : DatasetD.index p hd ≠ ub ∧ Index.load bs ≠ ub := by
  refine ⟨?_, (C33_partial bs).1⟩
  change NoUb _
  have h0 : ∀ D l, NoUb (toArray D l) := by intro D l; unfold toArray; noub
  have h1 : ∀ D l, NoUb (visitChunks D l) := by
    intro D l
    induction l with
    | nil => unfold visitChunks; noub
    | cons a l ih =>
      unfold visitChunks
      repeat' (first | exact h0 _ _ | noub1)
  have h2 : ∀ l sh gz, NoUb (scanFilters l sh gz) := by
    intro l
    induction l with
    | nil => intro _ _; unfold scanFilters; noub
    | cons a l ih => intro _ _; cases a <;> unfold scanFilters <;> first | exact ih _ _ | noub
  have h3 : ∀ s acc c, NoUb (expectedChunks p acc s c) := by
    intro s
    induction s with
    | nil => intro _ _; unfold expectedChunks; noub
    | cons a s ih =>
      intro _ c
      cases c <;> unfold expectedChunks
      · noub
      · repeat' (first | exact ih _ _ | noub1)
  have h4 : ∀ a b, NoUb (divCeilAll a b) := by
    intro a
    induction a with
    | nil => intro b; cases b <;> unfold divCeilAll <;> noub
    | cons x a ih =>
      intro b
      cases b <;> unfold divCeilAll
      · noub
      · repeat' (first | with_reducible exact ih _ | noub1)
  have h5 : ∀ l n, NoUb (strideScan p n l) := by
    intro l
    induction l with
    | nil => intro _; unfold strideScan; noub
    | cons a l ih =>
      intro _; unfold strideScan
      repeat' (first | with_reducible exact ih _ | noub1)
  unfold DatasetD.index Dataset.index Dataset.new strides h5ChunkShape h5Chunks
  repeat' (first | exact hr | exact ht | exact h0 _ _ | exact h1 _ _ | with_reducible exact h2 _ _ _ |
    exact h3 _ _ _ | exact h4 _ _ | exact h5 _ _ | noub1)

mutual
theorem noUb_indexGroup (p : Profile) (path : Option Name) (full : Name) : ∀ (g : H5Group),
    (∀ names d h, HasDataset g names d h → h.records ≠ ub ∧ h.dtype ≠ ub) →
    NoUb (indexGroup p path full g)
  | .mk ds gs, hg => by
    have h1 : NoUb (indexDatasets p ds) := by
      have : ∀ e ∈ ds, e.2.records ≠ ub ∧ e.2.dtype ≠ ub := fun e he =>
        hg [] e.1 e.2 ⟨_, .here _, he⟩
      clear hg
      induction ds with
      | nil => unfold indexDatasets; noub
      | cons a ds ih =>
        obtain ⟨m, d⟩ := a
        have hd := this (m, d) (by simp)
        have h2 := (C70_index p d hd.1 hd.2 []).1
        have h3 := ih fun e he => this e (by simp [he])
        unfold indexDatasets
        repeat' (first | exact h2 | noub1)
    have h2 : NoUb (indexGroups p path full gs) := noUb_indexGroups p path full gs
      fun l g hl names d h ⟨x, h1, h2⟩ => hg (l :: names) d h ⟨x, .down hl h1, h2⟩
    unfold indexGroup
    noub
theorem noUb_indexGroups (p : Profile) (path : Option Name) (full : Name) : ∀ (gs : List (Name × H5Group)),
    (∀ l g, (l, g) ∈ gs → ∀ names d h, HasDataset g names d h → h.records ≠ ub ∧ h.dtype ≠ ub) →
    NoUb (indexGroups p path full gs)
  | [], _ => by unfold indexGroups; noub
  | (link, g) :: gs, hg => by
    have h1 := noUb_indexGroup p path (full ++ slash :: link) g fun names d h hd =>
      hg link g (by simp) names d h hd
    have h2 := noUb_indexGroups p path full gs fun l g' hl => hg l g' (by simp [hl])
    have h3 : ∀ s, NoUb (lastPiece s) := by intro s; unfold lastPiece; noub
    unfold indexGroups
    repeat' (first | exact h3 _ | noub1)
end

/-- C70: indexing a whole file is never undefined behaviour, whatever its tree of groups looks like and
whatever HDF5 answers about its datasets. -/
theorem C70_index_file (p : Profile) (path : Option Name) (root : H5Group)
    (h : ∀ names d h, HasDataset root names d h → h.records ≠ ub ∧ h.dtype ≠ ub) :
    Index.indexFile p path root ≠ ub := by
  change NoUb _
  have := noUb_indexGroup p path [] root h
  unfold Index.indexFile
  noub

/-- A dataset whose chunk shape has a zero and whose type cannot be determined, in a subgroup: an error or a
panic. -/
example (p : Profile) (h : H5Dataset) (hr : h.records = err .io) (ht : h.dtype = err .io) :
    Index.indexFile p none (.mk [] [([97], .mk [([98], h)] [])]) ≠ ub := by
  refine C70_index_file p none _ fun names d x hx => ?_
  have : x = h := by
    obtain ⟨g, h1, h2⟩ := hx
    cases h1 with
    | here => simp [H5Group.datasets] at h2
    | down hm h1 =>
      simp only [H5Group.groups, List.mem_singleton, Prod.mk.injEq] at hm
      obtain ⟨-, rfl⟩ := hm
      cases h1 with
      | here => simpa [H5Group.datasets] using congrArg Prod.snd (List.mem_singleton.1 h2)
      | down hm _ => simp [H5Group.groups] at hm
  rw [this, hr, ht]
  simp

/-- A dataset whose chunk list is empty and whose strides make no sense, read by everything: panics, no
undefined behaviour (`C70_local` needs nothing about the dataset). -/
def broken : Dataset :=
  { Demo.ds with chunks := [], scaledDimSz := [7, 0], chunkDimSz := [0, 9], shape := [1000, 1000] }

/-- Two rows, two columns. -/
def brokenExt : Extents := .extent [.sliceEnd 0 2, .sliceEnd 0 2]

example : (directReadTo .release Demo.io broken sortByAddr brokenExt (List.replicate 20 0)).1 =
    panic .bounds := by
  unfold directReadTo
  have h1 : chunkBytes .release broken = ok 8 := rfl
  have h2 : reqBytes .release broken brokenExt = ok 8 := rfl
  have h3 : broken.groupChunkSlices .release brokenExt sortByAddr = panic .bounds := by decide +kernel
  simp [h1, h2, h3, ensure]

/-- C70 fails for the parallel reader of a release build: reading a 75 byte selection of `cut2015`, a
well-formed dataset, copies 95 bytes (= `not_C14`). -/
theorem not_C70 : WF .release cut2015 ∧ reqBytes .release cut2015 ext2015 = ok 75 ∧
    ∃ dst', DirectReadToPar .release io2015 cut2015 sortByAddr ext2015 (List.replicate 75 0)
      (ub, dst') := not_C14

end Hidefix.Props
