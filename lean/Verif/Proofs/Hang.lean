import Verif.Proofs.Decode
import Verif.Props.Serde
import Verif.Props.Reading
import Verif.Model.Poll
import Verif.Model.S3
import Verif.Model.Xarray

/-!
# What does not hang

`diverge` is an iteration that does not end. The only loop of the crate that may not end is the iterator of
slices (and, in the model, the recursion of the deserialisers, which does): if it ends, everything does.
-/

set_option autoImplicit false

namespace Hidefix.Hang
open Hidefix Hidefix.Spec Hidefix.Proofs Hidefix.Props Outcome

section tools

def NoHang {α : Type} (x : Outcome α) : Prop := x ≠ diverge

theorem NoHang.bind {α β : Type} {x : Outcome α} {f : α → Outcome β} (hx : NoHang x)
    (hf : ∀ a, NoHang (f a)) : NoHang (x >>= f) := by
  cases x with
  | ok a => exact hf a
  | diverge => exact absurd rfl hx
  | _ => simp [NoHang]

theorem okp_noHang {α : Type} {x : Outcome α} (h : OkOrPanic x) : NoHang x := by
  rcases h with ⟨a, rfl⟩ | ⟨f, rfl⟩ <;> simp [NoHang]

theorem noHang_decodeChunk (p : Profile) (inflate : List Byte → Option (List Byte)) (raw : List Byte)
    (chunkSz dsz : Nat) (gz sh : Bool) : NoHang (decodeChunk p inflate raw chunkSz dsz gz sh) := by
  unfold decodeChunk
  refine (okp_noHang (okp_debugAssert _ _)).bind fun _ => ?_
  have hun : ∀ c, NoHang (if (sh && decide (1 < dsz)) = true then unshuffleSized c dsz else ok c) := by
    intro c
    split
    · rcases unshuffleSized_okp c dsz with ⟨d, h, -⟩ | ⟨f, h⟩ <;> simp [NoHang, h]
    · simp [NoHang]
  cases gz with
  | true =>
    simp only [if_true]
    refine NoHang.bind ?_ fun _ => NoHang.bind ?_ fun c => hun c
    · unfold allocOk; split <;> simp [NoHang]
    · unfold decompress; split
      · simp [NoHang]
      · split <;> simp [NoHang]
  | false =>
    simp only [Bool.false_eq_true, if_false]
    exact NoHang.bind (by simp [NoHang]) fun c => hun c

theorem noHang_readChunk (p : Profile) (io : Io) (file : List Byte) (addr size chunkSz dsz : Nat)
    (gz sh : Bool) : NoHang (readChunk p io file addr size chunkSz dsz gz sh) := by
  unfold readChunk
  refine NoHang.bind ?_ fun _ => NoHang.bind ?_ fun _ => noHang_decodeChunk _ _ _ _ _ _ _
  · unfold allocOk; split <;> simp [NoHang]
  · unfold readRaw
    split
    · simp [NoHang]
    split
    · simp [NoHang]
    split <;> simp [NoHang]

theorem noHang_ok {α : Type} (a : α) : NoHang (ok a) := by simp [NoHang]
theorem noHang_err {α : Type} (e : Err) : NoHang (err e : Outcome α) := by simp [NoHang]
theorem noHang_panic {α : Type} (e : Fault) : NoHang (panic e : Outcome α) := by simp [NoHang]
theorem noHang_ub {α : Type} : NoHang (ub : Outcome α) := by simp [NoHang]
theorem noHang_add (p : Profile) (a b : Nat) : NoHang (add64 p a b) := by
  unfold add64; split
  · simp [NoHang]
  · cases p <;> simp [NoHang]
theorem noHang_sub (p : Profile) (a b : Nat) : NoHang (sub64 p a b) := by
  unfold sub64; split
  · simp [NoHang]
  · cases p <;> simp [NoHang]
theorem noHang_mul (p : Profile) (a b : Nat) : NoHang (mul64 p a b) := by
  unfold mul64; split
  · simp [NoHang]
  · cases p <;> simp [NoHang]
theorem noHang_dassert (p : Profile) (b : Bool) : NoHang (debugAssert p b) := okp_noHang (okp_debugAssert _ _)
theorem noHang_assert (b : Bool) : NoHang (assertP b) := by unfold assertP; split <;> simp [NoHang]
theorem noHang_ensure (b : Bool) (e : Err) : NoHang (ensure b e) := by unfold ensure; split <;> simp [NoHang]
theorem noHang_alloc (n : Nat) : NoHang (allocOk n) := by unfold allocOk; split <;> simp [NoHang]
theorem noHang_at {α : Type} (l : List α) (i : Nat) : NoHang (Hidefix.index l i) := by
  unfold Hidefix.index; split <;> simp [NoHang]
theorem noHang_slice (l : List Byte) (a b : Nat) : NoHang (sliceOf l a b) := by
  unfold sliceOf; split <;> simp [NoHang]
theorem noHang_copyTo (d : List Byte) (a b : Nat) (s : List Byte) : NoHang (copyTo d a b s) := by
  unfold copyTo; split <;> simp [NoHang]
theorem noHang_foldlM {α β : Type} (f : β → α → Outcome β) (hf : ∀ b a, NoHang (f b a)) :
    ∀ (l : List α) (b : β), NoHang (l.foldlM f b)
  | [], b => by rw [List.foldlM_nil]; exact noHang_ok b
  | a :: l, b => by
    rw [List.foldlM_cons]
    exact (hf b a).bind fun b' => noHang_foldlM f hf l b'
theorem noHang_mapM {α β : Type} (f : α → Outcome β) (hf : ∀ a, NoHang (f a)) :
    ∀ l : List α, NoHang (l.mapM f)
  | [] => by rw [List.mapM_nil]; exact noHang_ok _
  | a :: l => by
    rw [List.mapM_cons]
    exact (hf a).bind fun b => (noHang_mapM f hf l).bind fun _ => noHang_ok _
theorem noHang_product (p : Profile) (l : List Nat) : NoHang (product64 p l) :=
  noHang_foldlM _ (fun _ _ => noHang_mul _ _ _) _ _
theorem noHang_strengthReduce (l : List Nat) : NoHang (strengthReduce l) := by
  unfold strengthReduce; split <;> simp [NoHang]
theorem noHang_expect {α : Type} (o : Option α) : NoHang (expectSome o) := by
  cases o <;> simp [expectSome, NoHang]

theorem noHang_ite {α : Type} {c : Prop} [Decidable c] {a b : Outcome α} (ha : NoHang a) (hb : NoHang b) :
    NoHang (if c then a else b) := by split <;> assumption

/-- One step of `nohang`. -/
macro "nohang1" : tactic => `(tactic| (first
  | with_reducible assumption | with_reducible exact noHang_ok _ | with_reducible exact noHang_err _ | with_reducible exact noHang_panic _ | with_reducible exact noHang_ub
  | with_reducible exact noHang_add _ _ _ | with_reducible exact noHang_sub _ _ _ | with_reducible exact noHang_mul _ _ _ | with_reducible exact noHang_dassert _ _
  | with_reducible exact noHang_assert _ | with_reducible exact noHang_ensure _ _ | with_reducible exact noHang_alloc _ | with_reducible exact noHang_at _ _
  | with_reducible exact noHang_slice _ _ _ | with_reducible exact noHang_copyTo _ _ _ _ | with_reducible exact noHang_product _ _
  | with_reducible exact noHang_strengthReduce _ | with_reducible exact noHang_expect _ | with_reducible exact noHang_decodeChunk _ _ _ _ _ _ _
  | with_reducible exact noHang_readChunk _ _ _ _ _ _ _ _ _
  | with_reducible refine NoHang.bind ?_ fun _ => ?_ | with_reducible refine noHang_ite ?_ ?_ | split))

/-- Closes goals `NoHang (..)` about sequences of operations that have no undefined behaviour. -/
macro "nohang" : tactic => `(tactic| repeat' nohang1)

end tools

/-! ## Slicing -/

theorem noHang_exceeds (p : Profile) : ∀ a b c : List Nat, NoHang (exceeds p a b c)
  | i :: is, c :: cs, s :: ss => by
    have := noHang_exceeds p is cs ss
    unfold exceeds; nohang
  | [], _, _ => by unfold exceeds; nohang
  | _ :: _, [], _ => by unfold exceeds; nohang
  | _ :: _, _ :: _, [] => by unfold exceeds; nohang

theorem noHang_canonicalise (dims : List Nat) (e : Extents) : NoHang (e.canonicalise dims) := by
  unfold Extents.canonicalise; nohang

theorem noHang_countUnwrap (e : Extent) : NoHang e.countUnwrap := by
  unfold Extent.countUnwrap; nohang

theorem noHang_getCounts (e : Extents) (dims : List Nat) : NoHang (e.getCounts dims) := by
  unfold Extents.getCounts
  exact (noHang_canonicalise _ _).bind fun _ => noHang_mapM _ noHang_countUnwrap _

theorem noHang_getStartCountSized (e : Extents) (dims : List Nat) :
    NoHang (e.getStartCountSized dims) := by
  unfold Extents.getStartCountSized Extents.getStartCount
  have h1 := noHang_canonicalise dims e
  have h2 : ∀ l, NoHang (List.mapM Extent.countUnwrap l) := noHang_mapM _ noHang_countUnwrap
  repeat' (first | exact h1 | exact h2 _ | nohang1)

theorem noHang_slicerNew (p : Profile) (ds : Dataset) (i c : List Nat) : NoHang (Slicer.new p ds i c) := by
  have := noHang_exceeds p i c ds.shape
  unfold Slicer.new; nohang

theorem noHang_chunkSlicer (p : Profile) (ds : Dataset) (e : Extents) : NoHang (ds.chunkSlicer p e) := by
  unfold Dataset.chunkSlicer
  have h1 := noHang_getStartCountSized e ds.shape
  have h2 := noHang_exceeds p
  have h3 := noHang_slicerNew p ds
  have h4 : ∀ x : List Nat × List Nat, NoHang (do
      let oob ← exceeds p x.1 x.2 ds.shape
      if (oob || x.2.any fun c => c == 0) = true then ok (Slicer.empty ds)
      else Slicer.new p ds x.1 x.2) := by
    intro x
    refine (h2 _ _ _).bind fun _ => ?_
    split
    · nohang
    · exact h3 _ _
  simp only
  split
  · exact (noHang_panic _).bind fun x => h4 x
  · exact h1.bind fun x => h4 x

theorem noHang_chunkIndexAux (p : Profile) : ∀ (acc : Nat) (a b c : List Nat),
    NoHang (chunkIndexAux p acc a b c)
  | acc, i :: is, c :: cs, s :: ss => by
    have := fun acc => noHang_chunkIndexAux p acc is cs ss
    unfold chunkIndexAux
    repeat' (first | exact this _ | nohang1)
  | _, [], _, _ => by unfold chunkIndexAux; nohang
  | _, _ :: _, [], _ => by unfold chunkIndexAux; nohang
  | _, _ :: _, _ :: _, [] => by unfold chunkIndexAux; nohang

theorem noHang_chunkAtCoord (p : Profile) (ds : Dataset) (x : List Nat) : NoHang (ds.chunkAtCoord p x) := by
  unfold Dataset.chunkAtCoord
  have := noHang_chunkIndexAux p 0 x ds.chunkShapeReduced ds.scaledDimSz
  nohang

theorem noHang_containsAux (p : Profile) : ∀ a b c : List Nat, NoHang (Chunk.containsAux p a b c)
  | i :: is, c :: cs, s :: ss => by
    have := noHang_containsAux p is cs ss
    unfold Chunk.containsAux; nohang
  | [], _, _ => by unfold Chunk.containsAux; nohang
  | _ :: _, [], _ => by unfold Chunk.containsAux; nohang
  | _ :: _, _ :: _, [] => by unfold Chunk.containsAux; nohang

theorem noHang_contains (p : Profile) (c : Chunk) (i s : List Nat) : NoHang (c.contains p i s) := by
  unfold Chunk.contains
  have := noHang_containsAux p
  repeat' (first | exact this _ _ _ | nohang1)

theorem noHang_chunkStartAux (p : Profile) : ∀ (acc : Nat) (a b c : List Nat),
    NoHang (chunkStartAux p acc a b c)
  | acc, i :: is, c :: cs, s :: ss => by
    have := fun acc => noHang_chunkStartAux p acc is cs ss
    unfold chunkStartAux
    repeat' (first | exact this _ | nohang1)
  | _, [], _, _ => by unfold chunkStartAux; nohang
  | _, _ :: _, [], _ => by unfold chunkStartAux; nohang
  | _, _ :: _, _ :: _, [] => by unfold chunkStartAux; nohang

theorem noHang_addAll (p : Profile) : ∀ a b : List Nat, NoHang (addAll p a b)
  | i :: is, o :: os => by
    have := noHang_addAll p is os
    unfold addAll; nohang
  | [], _ => by unfold addAll; nohang
  | _ :: _, [] => by unfold addAll; nohang

theorem noHang_carryRest (p : Profile) : ∀ (c : Nat) (l : List Lane), NoHang (carryRest p c l)
  | _, [] => by unfold carryRest; nohang
  | c, l :: ls => by
    have := fun c => noHang_carryRest p c ls
    unfold carryRest
    repeat' (first | exact this _ | nohang1)

theorem noHang_cutSize (p : Profile) (l : Lane) : NoHang (cutSize p l) := by unfold cutSize; nohang

theorem noHang_walk (p : Profile) (stop : Nat) : ∀ (c a s : Nat) (l : List Lane), NoHang (walk p stop c a s l)
  | _, _, _, [] => by unfold walk; nohang
  | c, a, s, l :: ls => by
    have h1 := fun c a s => noHang_walk p stop c a s ls
    have h2 := noHang_carryRest p
    have h3 := noHang_cutSize p l
    unfold walk
    repeat' (first | exact h1 _ _ _ | exact h2 _ _ | exact h3 | nohang1)

theorem noHang_next (p : Profile) (ds : Dataset) (s : Slicer) : NoHang (s.next p ds) := by
  unfold Slicer.next
  have h1 := noHang_addAll p
  have h2 := noHang_chunkAtCoord p ds
  have h3 := noHang_contains p
  have h4 := noHang_chunkStartAux p
  have h5 := noHang_walk p
  repeat' (first | exact h1 _ _ | exact h2 _ | exact h3 _ _ _ | exact h4 _ _ _ _ |
    exact h5 _ _ _ _ _ | nohang1)

/-- The iteration over the slices of the selection ends. -/
def Ends (p : Profile) (ds : Dataset) (ext : Extents) : Prop :=
  ∀ t, ds.chunkSlices p ext = ok t → t.ending ≠ diverge

theorem noHang_chunkSlices {p : Profile} {ds : Dataset} {e : Extents} (hE : Ends p ds e) :
    NoHang (ds.chunkSlices p e) ∧ ∀ t, ds.chunkSlices p e = ok t → NoHang t.ending := by
  refine ⟨?_, hE⟩
  unfold Dataset.chunkSlices
  exact (noHang_chunkSlicer p ds e).bind fun _ => noHang_ok _

theorem noHang_groupScan (p : Profile) : ∀ (n : Nat) (l : List Item), NoHang (groupScan p n l)
  | _, [] => by unfold groupScan; nohang
  | n, a :: l => by
    have := fun n => noHang_groupScan p n l
    unfold groupScan
    repeat' (first | exact this _ | nohang1)

/-- `NoHang.bind` that remembers where the value comes from. -/
theorem NoHang.bindEq {α β : Type} {x : Outcome α} {f : α → Outcome β} (hx : NoHang x)
    (hf : ∀ a, x = ok a → NoHang (f a)) : NoHang (x >>= f) := by
  cases x with
  | ok a => exact hf a rfl
  | diverge => exact absurd rfl hx
  | _ => simp [NoHang]

theorem noHang_groupUnsorted {p : Profile} {ds : Dataset} {e : Extents} (hE : Ends p ds e) : NoHang (ds.groupUnsorted p e) := by
  unfold Dataset.groupUnsorted
  obtain ⟨h1, h2⟩ := noHang_chunkSlices hE
  refine NoHang.bindEq h1 fun t ht => (noHang_groupScan _ _ _).bind fun _ => (h2 t ht).bind fun _ => ?_
  nohang

theorem noHang_groupChunkSlices {p : Profile} {ds : Dataset} {e : Extents} (hE : Ends p ds e) (s : List GItem → List GItem) :
    NoHang (ds.groupChunkSlices p e s) := by
  unfold Dataset.groupChunkSlices
  exact (noHang_groupUnsorted hE).bind fun _ => noHang_ok _

theorem noHang_chunkBytes (p : Profile) (ds : Dataset) : NoHang (chunkBytes p ds) := by
  unfold chunkBytes; nohang

theorem noHang_reqBytes (p : Profile) (ds : Dataset) (e : Extents) : NoHang (reqBytes p ds e) := by
  have := noHang_getCounts e ds.shape
  unfold reqBytes; nohang

theorem noHang_loop {σ β : Type} (f : σ → β → Outcome σ) (hf : ∀ s b, NoHang (f s b)) :
    ∀ (l : List β) (s : σ), NoHang (loop f s l).1
  | [], s => by unfold loop; nohang
  | b :: l, s => by
    unfold loop
    have := hf s b
    split
    · exact noHang_loop f hf l _
    · nohang
    · nohang
    · nohang
    · rename_i h; exact absurd h this

/-! ## Local readers -/

theorem noHang_directStep (p : Profile) (io : Io) (file : List Byte) (ds : Dataset) (csz : Nat)
    (s : DirectSt) (g : GItem) : NoHang (directStep p io file ds csz s g) := by
  unfold directStep directChunk; nohang

theorem noHang_cacheStep (p : Profile) (io : Io) (file : List Byte) (ds : Dataset) (csz : Nat)
    (s : CacheSt) (it : Item) : NoHang (cacheStep p io file ds csz s it) := by
  unfold cacheStep; nohang

theorem noHang_unsteady {σ β : Type} {step : List Byte → σ → β → Outcome σ}
    {need : σ → β → Option (Nat × Nat)} {disk : Disk} (h : ∀ f s b, NoHang (step f s b))
    (s : σ × Nat) (b : β) : NoHang (unsteady step need disk s b) := by
  unfold unsteady
  repeat' (first | exact h _ _ _ | nohang1)

theorem hang_local (p : Profile) (io : Io) (file : List Byte) (disk : Disk) (ds : Dataset)
    (sort : List GItem → List GItem) (rd : CacheReader) (ext : Extents) (dst : List Byte) (hE : Ends p ds ext) :
    (directReadTo p io ds sort ext dst).1 ≠ diverge ∧ (rd.readTo p io file ds ext dst).1 ≠ diverge ∧
    (directReadToU p io disk ds sort ext dst).1 ≠ diverge ∧ (rd.readToU p io disk ds ext dst).1 ≠ diverge := by
  have h1 := noHang_chunkBytes p ds
  have h2 := noHang_reqBytes p ds ext
  have h3 := noHang_groupChunkSlices hE sort
  obtain ⟨h4, h5⟩ := noHang_chunkSlices hE
  have hpre : ∀ {α : Type} {x : Outcome α} (_ : NoHang x) (n : Nat), NoHang (x >>= fun _ => ok n) :=
    fun h n => h.bind fun _ => noHang_ok n
  have hc : NoHang (do
      let vsz ← reqBytes p ds ext
      ensure (decide (vsz ≤ dst.length)) .capacity
      let t ← ds.chunkSlices p ext
      ok (vsz, t) : Outcome (Nat × Trace Item)) := by nohang
  have hend : ∀ {vsz t}, (do
      let vsz ← reqBytes p ds ext
      ensure (decide (vsz ≤ dst.length)) .capacity
      let t ← ds.chunkSlices p ext
      ok (vsz, t) : Outcome (Nat × Trace Item)) = ok (vsz, t) → NoHang t.ending := by
    intro vsz t h
    obtain ⟨_, -, h⟩ := bind_eq_ok.1 h
    obtain ⟨_, -, h⟩ := bind_eq_ok.1 h
    obtain ⟨t', ht, h⟩ := bind_eq_ok.1 h
    injection h with h
    obtain ⟨-, rfl⟩ := Prod.mk.inj h
    exact h5 _ ht
  refine ⟨?_, ?_, ?_, ?_⟩
  · unfold directReadTo
    simp only
    split
    · exact NoHang.bind (noHang_loop _ (noHang_directStep _ _ _ _ _) _ _) fun _ => noHang_ok _
    · refine hpre ?_ 0
      nohang
  · unfold CacheReader.readTo
    simp only
    split
    · rename_i h
      exact NoHang.bind (noHang_loop _ (noHang_cacheStep _ _ _ _ _) _ _) fun _ =>
        (hend h).bind fun _ => noHang_ok _
    · exact hpre hc 0
  · unfold directReadToU
    simp only
    split
    · exact NoHang.bind (noHang_loop _ (noHang_unsteady fun f s b => noHang_directStep _ _ _ _ _ _ _) _ _)
        fun _ => noHang_ok _
    · refine hpre ?_ 0
      nohang
  · unfold CacheReader.readToU
    simp only
    split
    · rename_i h
      exact NoHang.bind (noHang_loop _ (noHang_unsteady fun f s b => noHang_cacheStep _ _ _ _ _ _ _) _ _)
        fun _ => (hend h).bind fun _ => noHang_ok _
    · exact hpre hc 0

/-! ## Streams -/

theorem noHang_xdrFactor (t : Datatype) : NoHang (xdrFactor t) := by unfold xdrFactor; nohang

theorem noHang_castOk (t : Prim) (l : List Byte) : NoHang (castOk t l) := noHang_ensure _ _

theorem noHang_xdrWord (h : Host) (t : Prim) (o : ByteOrder) (w : List Byte) :
    NoHang (xdrWord h t o w) := by unfold xdrWord toNativeOne; nohang

theorem noHang_xdr (h : Host) (l : List Byte) (t : Datatype) (o : ByteOrder) : NoHang (xdr h l t o) := by
  have h1 := noHang_castOk
  have h2 : ∀ t l, NoHang (List.mapM (xdrWord h t o) l) := fun t => noHang_mapM _ (noHang_xdrWord h t o)
  unfold xdr xdrCastSlice toBigESized
  repeat' (first | exact h1 _ _ | exact h2 _ _ | nohang1)

theorem noHang_streamItem (p : Profile) (rt : Rt) (io : Io) (file : List Byte) (ds : Dataset) (csz : Nat)
    {factor : Outcome Nat} {conv : List Byte → Outcome (List Byte)} (hf : NoHang factor)
    (hc : ∀ l, NoHang (conv l)) (lru : Lru) (b : BSlice) :
    NoHang (streamItem p rt io file ds csz factor conv lru b) := by
  unfold streamItem readChunkTokio readRaw blockInPlace
  repeat' (first | exact hc _ | nohang1)

theorem noHang_streamSlices {p : Profile} {ds : Dataset} {e : Extents} (hE : Ends p ds e) : NoHang (streamSlices p ds e) := by
  unfold streamSlices
  obtain ⟨h1, h2⟩ := noHang_chunkSlices hE
  refine NoHang.bindEq h1 fun t ht => NoHang.bind ?_ fun _ => (h2 t ht).bind fun _ => noHang_ok _
  exact noHang_mapM _ (fun it => by unfold bslice; nohang) _

theorem noHang_streamNew {p : Profile} {ds : Dataset} {e : Extents} (hE : Ends p ds e) : NoHang (streamNew p ds e) := by
  unfold streamNew lruCap
  have h1 := noHang_chunkBytes p ds
  have h2 := noHang_streamSlices hE
  nohang

/-- A generator that has not met undefined behaviour. -/
def Sound : _root_.Hidefix.Gen → Prop
  | .broken o => NoHang o
  | _ => True

theorem sound_resume (p : Profile) (rt : Rt) (io : Io) (ds : Dataset) (csz : Nat)
    {factor : Outcome Nat} {conv : List Byte → Outcome (List Byte)} (hf : NoHang factor)
    (hc : ∀ l, NoHang (conv l)) (file : List Byte) (lru : Lru) (l : List BSlice) :
    (Gen.resume p rt io ds csz factor conv file lru l).1 ≠ some diverge ∧
    Sound (Gen.resume p rt io ds csz factor conv file lru l).2.1 := by
  cases l with
  | nil => exact ⟨by simp [Gen.resume], trivial⟩
  | cons b bs =>
    have := noHang_streamItem p rt io file ds csz hf hc lru b
    unfold Gen.resume
    simp only
    split
    · exact ⟨by simp, trivial⟩
    · exact ⟨by simp, trivial⟩
    · exact ⟨by simp, noHang_panic _⟩
    · exact ⟨by simp, noHang_ub⟩
    · rename_i h; exact absurd h this

theorem sound_poll (p : Profile) (rt : Rt) (io : Io) (ds : Dataset) (csz : Nat)
    {factor : Outcome Nat} {conv : List Byte → Outcome (List Byte)} (hf : NoHang factor)
    (hc : ∀ l, NoHang (conv l)) (file : Option (List Byte)) {g : _root_.Hidefix.Gen} (hg : Sound g) :
    (g.poll p rt io ds csz factor conv file).1 ≠ some diverge ∧
    Sound (g.poll p rt io ds csz factor conv file).2.1 := by
  have H := sound_resume p rt io ds csz hf hc
  cases g with
  | fresh cap l =>
    unfold Gen.poll
    cases file with
    | none => exact ⟨by simp, trivial⟩
    | some f => exact H _ _ _
  | running lru l =>
    unfold Gen.poll
    cases file with
    | some f => exact H _ _ _
    | none =>
      simp only
      cases l with
      | nil => exact ⟨by simp, trivial⟩
      | cons b bs =>
        simp only
        split
        · exact H _ _ _
        · exact ⟨by simp, trivial⟩
  | ended => exact ⟨by simp [Gen.poll], trivial⟩
  | broken o =>
    refine ⟨?_, hg⟩
    intro h
    injection h with h
    exact hg h

theorem sound_polls (p : Profile) (rt : Rt) (io : Io) (ds : Dataset) (csz : Nat)
    {factor : Outcome Nat} {conv : List Byte → Outcome (List Byte)} (hf : NoHang factor)
    (hc : ∀ l, NoHang (conv l)) : ∀ (disks : List (Option (List Byte))) {g : _root_.Hidefix.Gen},
    Sound g → ∀ a ∈ g.polls p rt io ds csz factor conv disks, a.1 ≠ some diverge
  | [], g, _, a, ha => by simp [Gen.polls] at ha
  | d :: disks, g, hg, a, ha => by
    obtain ⟨h1, h2⟩ := sound_poll p rt io ds csz hf hc d hg
    rcases List.mem_cons.1 ha with rfl | ha
    · exact h1
    · exact sound_polls p rt io ds csz hf hc disks h2 a ha

theorem hang_stream (p : Profile) (rt : Rt) (h : Host) (io : Io) (ds : Dataset) (ext : Extents)
    (disks : List (Option (List Byte))) (hE : Ends p ds ext) :
    (streamPolls p rt io ds ext disks ≠ diverge ∧
      ∀ l, streamPolls p rt io ds ext disks = ok l → ∀ a ∈ l, a.1 ≠ some diverge) ∧
    (streamXdrPolls p rt h io ds ext disks ≠ diverge ∧
      ∀ l, streamXdrPolls p rt h io ds ext disks = ok l → ∀ a ∈ l, a.1 ≠ some diverge) := by
  have h1 := noHang_streamNew hE
  have hs : ∀ {csz g}, streamNew p ds ext = ok (csz, g) → Sound g := by
    intro csz g hn
    unfold streamNew at hn
    obtain ⟨_, -, hn⟩ := bind_eq_ok.1 hn
    obtain ⟨_, -, hn⟩ := bind_eq_ok.1 hn
    obtain ⟨_, -, hn⟩ := bind_eq_ok.1 hn
    injection hn with hn
    obtain ⟨-, rfl⟩ := Prod.mk.inj hn
    trivial
  refine ⟨⟨?_, fun l hl => ?_⟩, ?_, fun l hl => ?_⟩
  · exact h1.bind fun _ => noHang_ok _
  · obtain ⟨⟨csz, g⟩, hn, hl⟩ := bind_eq_ok.1 hl
    injection hl with hl
    subst hl
    exact sound_polls p rt io ds csz (noHang_ok _) (fun _ => noHang_ok _) disks (hs hn)
  · exact h1.bind fun _ => noHang_ok _
  · obtain ⟨⟨csz, g⟩, hn, hl⟩ := bind_eq_ok.1 hl
    injection hl with hl
    subst hl
    exact sound_polls p rt io ds csz (noHang_xdrFactor _) (fun _ => noHang_xdr _ _ _ _) disks (hs hn)

/-! ## S3 -/

theorem noHang_requestStep (p : Profile) (acc : List Request) (g : GItem) : NoHang (requestStep p acc g) := by
  unfold requestStep newRequest coalesces; nohang

theorem noHang_fetch (p : Profile) (server : Server) (r : Request) : NoHang (fetch p server r) := by
  unfold fetch; nohang

theorem noHang_s3Step (p : Profile) (inflate : List Byte → Option (List Byte)) (ds : Dataset) (csz : Nat)
    (server : Server) (s : S3St) (o : S3Op) : NoHang (s3Step p inflate ds csz server s o) := by
  have := noHang_fetch p server
  cases o <;> unfold s3Step <;> repeat' (first | exact this _ | nohang1)

theorem hang_s3 (p : Profile) (inflate : List Byte → Option (List Byte)) (ds : Dataset)
    (sort : List GItem → List GItem) (server : Server) (complete : List Request → List Request)
    (ext : Extents) (dst : List Byte) (rt : Rt) (hE : Ends p ds ext) :
    blockOn rt (s3ReadTo p inflate ds sort server complete ext dst).1 ≠ diverge := by
  have h1 := noHang_chunkBytes p ds
  have h2 := noHang_reqBytes p ds ext
  have h3 := noHang_groupChunkSlices hE sort
  have h4 : ∀ l, NoHang (groupRequests p l) := fun l => noHang_foldlM _ (noHang_requestStep p) _ _
  have hpre : NoHang (s3Prelude p ds sort ext dst.length) := by
    unfold s3Prelude
    repeat' (first | exact h4 _ | nohang1)
  have : NoHang (s3ReadTo p inflate ds sort server complete ext dst).1 := by
    unfold s3ReadTo
    split
    · exact NoHang.bind (noHang_loop _ (noHang_s3Step _ _ _ _ _) _ _) fun _ => noHang_ok _
    · exact hpre.bind fun _ => noHang_ok _
  change NoHang _
  unfold blockOn drive blockInPlace
  nohang

/-! ## Parallel reads, typed values -/

theorem hang_values (p : Profile) (h : Host) (t : Prim) (ds : Dataset) (rd : ByteReader) (ext : Extents)
    (junk : Nat → Byte) (items : List PyItem) (hrd : ∀ e d, (rd e d).1 ≠ diverge) :
    values p h t ds rd ext ≠ diverge ∧ valuesDynPar p h t ds rd ext junk ≠ diverge ∧
    pyGetItem p h ds rd junk items ≠ diverge := by
  have h1 := noHang_getCounts ext ds.shape
  have h2 : ∀ t e d, NoHang (valuesTo h t ds.order rd e d).1 := by
    intro t e d
    unfold valuesTo
    have := hrd e d
    split
    · nohang
    · exact this
  have h3 : ∀ (its : List PyItem) (dims : List Nat), NoHang (pyDims p its dims) := by
    intro its
    induction its with
    | nil => intro _; unfold pyDims; nohang
    | cons it its ih =>
      intro dims
      unfold pyDims pySlice isizeSucc pyDim
      repeat' (first | with_reducible exact ih _ | nohang1)
  refine ⟨?_, ?_, ?_⟩ <;> change NoHang _
  · unfold values
    repeat' (first | with_reducible exact h2 _ _ _ | nohang1)
  · unfold valuesDynPar
    repeat' (first | with_reducible exact h2 _ _ _ | nohang1)
  · unfold pyGetItem pySelect pyPrim Extents.ofStartsCounts
    repeat' (first | with_reducible exact h2 _ _ _ | with_reducible exact h3 _ _ | nohang1)

theorem hang_python (p : Profile) (h : Host) (t : Prim) (ds : Dataset) (rd : Dataset → ByteReader)
    (ext : Extents) (junk : Nat → Byte) (narrow : List Byte → List Byte) (g : GroupIndex)
    (sched : List Nat) (name : Name) (group : Option Name) (fill : Option PyScalar) (key : List PyItem)
    (cond fv : PyScalar) (bytes : List Byte) (hrd : ∀ ds e d, (rd ds e d).1 ≠ diverge) :
    valuesUnstable p h t ds (rd ds) ext junk ≠ diverge ∧
    pyApplyFill narrow h sched t cond fv bytes ≠ diverge ∧
    xrGetItem p narrow h g rd junk sched name group fill key ≠ diverge := by
  have h1 := noHang_getCounts ext ds.shape
  have h2 : ∀ e d, NoHang (valuesTo h t ds.order (rd ds) e d).1 := by
    intro e d
    unfold valuesTo
    have := hrd ds e d
    split
    · nohang
    · exact this
  have h3 : ∀ t x, NoHang (extractAs narrow t x) := by
    intro t x
    cases t <;> unfold extractAs <;> nohang
  have h4 : ∀ t c f b, NoHang (pyApplyFill narrow h sched t c f b) := by
    intro t c f b
    unfold pyApplyFill applyFillValue
    repeat' (first | with_reducible exact h3 _ _ | nohang1)
  refine ⟨?_, h4 _ _ _ _, ?_⟩ <;> change NoHang _
  · unfold valuesUnstable
    repeat' (first | with_reducible exact h2 _ _ | nohang1)
  · have h5 : ∀ hd, NoHang (pyHandle g hd) := by intro hd; unfold pyHandle; nohang
    have h6 : ∀ ds, NoHang (pyGetItem p h ds (rd ds) junk key) := fun ds =>
      (hang_values p h .u8 ds (rd ds) .all junk key (hrd ds)).2.2
    unfold xrGetItem
    repeat' (first | with_reducible exact h4 _ _ _ _ | with_reducible exact h5 _ |
      with_reducible exact h6 _ | nohang1)

/-! ## Indexing, loading -/

theorem hang_index (p : Profile) (hd : H5Dataset) (hr : hd.records ≠ diverge) (ht : hd.dtype ≠ diverge)
    (bs : List Byte) : DatasetD.index p hd ≠ diverge ∧ Index.load bs ≠ diverge := by
  refine ⟨?_, (C33_partial bs).2.1⟩
  change NoHang _
  have h0 : ∀ D l, NoHang (toArray D l) := by intro D l; unfold toArray; nohang
  have h1 : ∀ D l, NoHang (visitChunks D l) := by
    intro D l
    induction l with
    | nil => unfold visitChunks; nohang
    | cons a l ih =>
      unfold visitChunks
      repeat' (first | exact h0 _ _ | nohang1)
  have h2 : ∀ l sh gz, NoHang (scanFilters l sh gz) := by
    intro l
    induction l with
    | nil => intro _ _; unfold scanFilters; nohang
    | cons a l ih => intro _ _; cases a <;> unfold scanFilters <;> first | exact ih _ _ | nohang
  have h3 : ∀ s acc c, NoHang (expectedChunks p acc s c) := by
    intro s
    induction s with
    | nil => intro _ _; unfold expectedChunks; nohang
    | cons a s ih =>
      intro _ c
      cases c <;> unfold expectedChunks
      · nohang
      · repeat' (first | exact ih _ _ | nohang1)
  have h4 : ∀ a b, NoHang (divCeilAll a b) := by
    intro a
    induction a with
    | nil => intro b; cases b <;> unfold divCeilAll <;> nohang
    | cons x a ih =>
      intro b
      cases b <;> unfold divCeilAll
      · nohang
      · repeat' (first | with_reducible exact ih _ | nohang1)
  have h5 : ∀ l n, NoHang (strideScan p n l) := by
    intro l
    induction l with
    | nil => intro _; unfold strideScan; nohang
    | cons a l ih =>
      intro _; unfold strideScan
      repeat' (first | with_reducible exact ih _ | nohang1)
  unfold DatasetD.index Dataset.index Dataset.new strides h5ChunkShape h5Chunks
  repeat' (first | exact hr | exact ht | exact h0 _ _ | exact h1 _ _ | with_reducible exact h2 _ _ _ |
    exact h3 _ _ _ | exact h4 _ _ | exact h5 _ _ | nohang1)

mutual
theorem noHang_indexGroup (p : Profile) (path : Option Name) (full : Name) : ∀ (g : H5Group),
    (∀ names d h, HasDataset g names d h → h.records ≠ diverge ∧ h.dtype ≠ diverge) →
    NoHang (indexGroup p path full g)
  | .mk ds gs, hg => by
    have h1 : NoHang (indexDatasets p ds) := by
      have : ∀ e ∈ ds, e.2.records ≠ diverge ∧ e.2.dtype ≠ diverge := fun e he =>
        hg [] e.1 e.2 ⟨_, .here _, he⟩
      clear hg
      induction ds with
      | nil => unfold indexDatasets; nohang
      | cons a ds ih =>
        obtain ⟨m, d⟩ := a
        have hd := this (m, d) (by simp)
        have h2 := (hang_index p d hd.1 hd.2 []).1
        have h3 := ih fun e he => this e (by simp [he])
        unfold indexDatasets
        repeat' (first | exact h2 | nohang1)
    have h2 : NoHang (indexGroups p path full gs) := noHang_indexGroups p path full gs
      fun l g hl names d h ⟨x, h1, h2⟩ => hg (l :: names) d h ⟨x, .down hl h1, h2⟩
    unfold indexGroup
    nohang
theorem noHang_indexGroups (p : Profile) (path : Option Name) (full : Name) : ∀ (gs : List (Name × H5Group)),
    (∀ l g, (l, g) ∈ gs → ∀ names d h, HasDataset g names d h → h.records ≠ diverge ∧ h.dtype ≠ diverge) →
    NoHang (indexGroups p path full gs)
  | [], _ => by unfold indexGroups; nohang
  | (link, g) :: gs, hg => by
    have h1 := noHang_indexGroup p path (full ++ slash :: link) g fun names d h hd =>
      hg link g (by simp) names d h hd
    have h2 := noHang_indexGroups p path full gs fun l g' hl => hg l g' (by simp [hl])
    have h3 : ∀ s, NoHang (lastPiece s) := by intro s; unfold lastPiece; nohang
    unfold indexGroups
    repeat' (first | exact h3 _ | nohang1)
end

theorem hang_index_file (p : Profile) (path : Option Name) (root : H5Group)
    (h : ∀ names d h, HasDataset root names d h → h.records ≠ diverge ∧ h.dtype ≠ diverge) :
    Index.indexFile p path root ≠ diverge := by
  change NoHang _
  have := noHang_indexGroup p path [] root h
  unfold Index.indexFile
  nohang

end Hidefix.Hang
