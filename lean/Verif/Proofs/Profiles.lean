import Verif.Proofs.StreamRun
import Verif.Model.Values

/-!
# A debug run that does not panic is a release run
-/

set_option autoImplicit false

namespace Hidefix.Proofs
open Hidefix Hidefix.Spec Outcome

/-- The debug outcome `x` is a panic, or the release outcome `y` is the same. -/
def Le {α : Type} (x y : Outcome α) : Prop := (∃ f, x = .panic f) ∨ x = y

theorem Le.rfl' {α : Type} (x : Outcome α) : Le x x := .inr rfl

theorem Le.bind {α β : Type} {x y : Outcome α} {f g : α → Outcome β} (h : Le x y)
    (hf : ∀ a, x = ok a → Le (f a) (g a)) : Le (x >>= f) (y >>= g) := by
  rcases h with ⟨e, rfl⟩ | rfl
  · exact .inl ⟨e, rfl⟩
  · cases x with
    | ok a => exact hf a rfl
    | _ => exact .inr rfl

/-- Debug-only code in front. -/
theorem Le.skip {α β : Type} {x : Outcome α} {f : α → Outcome β} {y : Outcome β} (hx : OkOrPanic x)
    (h : ∀ a, x = ok a → Le (f a) y) : Le (x >>= f) y := by
  rcases hx with ⟨a, rfl⟩ | ⟨e, rfl⟩
  · exact h a rfl
  · exact .inl ⟨e, rfl⟩

theorem Le.ok {α : Type} {x y : Outcome α} {a : α} (h : Le x y) (hx : x = .ok a) : y = .ok a := by
  rcases h with ⟨e, he⟩ | rfl
  · rw [he] at hx; simp at hx
  · exact hx

theorem le_add64 (a b : Nat) : Le (add64 .debug a b) (add64 .release a b) := by
  unfold add64; split
  · exact .inr rfl
  · exact .inl ⟨_, rfl⟩
theorem le_sub64 (a b : Nat) : Le (sub64 .debug a b) (sub64 .release a b) := by
  unfold sub64; split
  · exact .inr rfl
  · exact .inl ⟨_, rfl⟩
theorem le_mul64 (a b : Nat) : Le (mul64 .debug a b) (mul64 .release a b) := by
  unfold mul64; split
  · exact .inr rfl
  · exact .inl ⟨_, rfl⟩
theorem le_debugAssert (b : Bool) : Le (debugAssert .debug b) (debugAssert .release b) := by
  cases b
  · exact .inl ⟨_, rfl⟩
  · exact .inr rfl

theorem le_foldlM {α β : Type} {f g : β → α → Outcome β} (h : ∀ b a, Le (f b a) (g b a))
    (l : List α) (b : β) : Le (l.foldlM f b) (l.foldlM g b) := by
  induction l generalizing b with
  | nil => exact .inr rfl
  | cons a l ih => exact (h b a).bind fun b' _ => ih b'

theorem le_mapM {α β : Type} {f g : α → Outcome β} (h : ∀ a, Le (f a) (g a)) (l : List α) :
    Le (l.mapM f) (l.mapM g) := by
  induction l with
  | nil => exact .inr rfl
  | cons a l ih =>
    rw [List.mapM_cons, List.mapM_cons]
    exact (h a).bind fun b _ => ih.bind fun bs _ => .inr rfl

theorem le_product64 (l : List Nat) : Le (product64 .debug l) (product64 .release l) :=
  le_foldlM (fun _ _ => le_mul64 _ _) l 1

theorem le_strideScan (acc : Nat) (l : List Nat) :
    Le (strideScan .debug acc l) (strideScan .release acc l) := by
  induction l generalizing acc with
  | nil => exact .inr rfl
  | cons c l ih => exact (le_mul64 _ _).bind fun a _ => (ih a).bind fun _ _ => .inr rfl

theorem le_strides (l : List Nat) : Le (strides .debug l) (strides .release l) :=
  (le_strideScan _ _).bind fun _ _ => .inr rfl

theorem le_new (dtype : Datatype) (order : ByteOrder) (shape : List Nat) (chunks : List Chunk)
    (cs : List Nat) (sh : Bool) (gz : Option Nat) :
    Le (Dataset.new .debug dtype order shape chunks cs sh gz)
      (Dataset.new .release dtype order shape chunks cs sh gz) :=
  (Le.rfl' _).bind fun _ _ => (Le.rfl' _).bind fun _ _ => (le_strides _).bind fun _ _ =>
    (le_strides _).bind fun _ _ => (le_strides _).bind fun _ _ => .inr rfl

theorem le_containsAux (i o c : List Nat) :
    Le (Chunk.containsAux .debug i o c) (Chunk.containsAux .release i o c) := by
  induction i generalizing o c with
  | nil => exact .inr rfl
  | cons x i ih =>
    cases o with
    | nil => exact .inr rfl
    | cons y o =>
      cases c with
      | nil => exact .inr rfl
      | cons z c =>
        unfold Chunk.containsAux
        split
        · exact .inr rfl
        · refine (le_add64 _ _).bind fun e _ => ?_
          split
          · exact .inr rfl
          · exact ih _ _

theorem le_contains (ch : Chunk) (i c : List Nat) :
    Le (ch.contains .debug i c) (ch.contains .release i c) :=
  (Le.rfl' _).bind fun _ _ => (Le.rfl' _).bind fun _ _ => le_containsAux _ _ _

theorem le_exceeds (a b c : List Nat) : Le (exceeds .debug a b c) (exceeds .release a b c) := by
  induction a generalizing b c with
  | nil => exact .inr rfl
  | cons x a ih =>
    cases b with
    | nil => exact .inr rfl
    | cons y b =>
      cases c with
      | nil => exact .inr rfl
      | cons z c =>
        unfold exceeds
        refine (le_add64 _ _).bind fun l _ => ?_
        split
        · exact .inr rfl
        · exact ih _ _

theorem le_slicerNew (ds : Dataset) (i c : List Nat) :
    Le (Slicer.new .debug ds i c) (Slicer.new .release ds i c) := by
  have key : ∀ stop : Nat, Le
      (do
        debugAssert .debug (i.length == ds.shape.length)
        debugAssert .debug (c.length == ds.shape.length)
        let b ← exceeds .debug i c ds.shape
        debugAssert .debug !b
        let _ ← strengthReduce c
        ok ({ offset := 0, coords := List.map (fun _ => 0) ds.shape, indices := i, counts := c,
              stop := stop } : Slicer))
      (do
        debugAssert .release (i.length == ds.shape.length)
        debugAssert .release (c.length == ds.shape.length)
        let _ ← strengthReduce c
        ok ({ offset := 0, coords := List.map (fun _ => 0) ds.shape, indices := i, counts := c,
              stop := stop } : Slicer)) := fun stop =>
    (le_debugAssert _).bind fun _ _ => (le_debugAssert _).bind fun _ _ =>
      Le.skip (okp_exceeds _ _ _ _) fun _ _ => Le.skip (okp_debugAssert _ _) fun _ _ => .inr rfl
  unfold Slicer.new
  by_cases hs : ds.isScalar = true
  · simp only [hs, if_true]
    refine (Le.rfl' _).bind fun _ _ => ?_
    simp only [ok_bind]
    exact key 1
  · simp only [hs]
    refine (le_product64 _).bind fun stop _ => ?_
    exact key stop

theorem le_chunkIndexAux (acc : Nat) (i c s : List Nat) :
    Le (chunkIndexAux .debug acc i c s) (chunkIndexAux .release acc i c s) := by
  induction i generalizing acc c s with
  | nil => exact .inr rfl
  | cons x i ih =>
    cases c with
    | nil => exact .inr rfl
    | cons y c =>
      cases s with
      | nil => exact .inr rfl
      | cons z s =>
        exact (le_mul64 _ _).bind fun _ _ => (le_add64 _ _).bind fun _ _ => ih _ _ _

theorem le_chunkAtCoord (ds : Dataset) (i : List Nat) :
    Le (ds.chunkAtCoord .debug i) (ds.chunkAtCoord .release i) :=
  (le_debugAssert _).bind fun _ _ => (le_debugAssert _).bind fun _ _ =>
    (le_chunkIndexAux _ _ _ _).bind fun _ _ => .inr rfl

theorem le_chunkStartAux (acc : Nat) (i c s : List Nat) :
    Le (chunkStartAux .debug acc i c s) (chunkStartAux .release acc i c s) := by
  induction i generalizing acc c s with
  | nil => exact .inr rfl
  | cons x i ih =>
    cases c with
    | nil => exact .inr rfl
    | cons y c =>
      cases s with
      | nil => exact .inr rfl
      | cons z s =>
        exact (le_sub64 _ _).bind fun _ _ => (le_mul64 _ _).bind fun _ _ =>
          (le_add64 _ _).bind fun _ _ => ih _ _ _

theorem le_carryRest (c : Nat) (ls : List Lane) :
    Le (carryRest .debug c ls) (carryRest .release c ls) := by
  induction ls generalizing c with
  | nil => exact .inr rfl
  | cons l ls ih =>
    unfold carryRest
    refine (le_add64 _ _).bind fun o _ => ?_
    split
    · exact .inr rfl
    · exact (ih _).bind fun _ _ => .inr rfl

theorem le_cutSize (l : Lane) : Le (cutSize .debug l) (cutSize .release l) := by
  unfold cutSize
  refine (le_add64 _ _).bind fun o _ => ?_
  split
  · exact (le_sub64 _ _).bind fun _ _ => le_sub64 _ _
  · exact .inr rfl

theorem le_walk (stop c a s : Nat) (ls : List Lane) :
    Le (walk .debug stop c a s ls) (walk .release stop c a s ls) := by
  induction ls generalizing c a s with
  | nil => exact .inr rfl
  | cons l ls ih =>
    unfold walk
    refine (le_cutSize _).bind fun csz _ => (le_add64 _ _).bind fun o _ => ?_
    simp only
    split
    · exact (ih _ _ _).bind fun _ _ => .inr rfl
    · refine (le_debugAssert _).bind fun _ _ => (le_add64 _ _).bind fun ce _ =>
        (le_sub64 _ _).bind fun cce _ => (le_sub64 _ _).bind fun d _ =>
        (le_mul64 _ _).bind fun diff _ => (le_add64 _ _).bind fun _ _ => (le_add64 _ _).bind fun _ _ =>
        (le_add64 _ _).bind fun _ _ => ?_
      split
      · exact (ih _ _ _).bind fun _ _ => .inr rfl
      · exact (le_debugAssert _).bind fun _ _ => (le_carryRest _ _).bind fun _ _ => .inr rfl

theorem le_addAll (a b : List Nat) : Le (addAll .debug a b) (addAll .release a b) := by
  induction a generalizing b with
  | nil => exact .inr rfl
  | cons x a ih =>
    cases b with
    | nil => exact .inr rfl
    | cons y b => exact (le_add64 _ _).bind fun _ _ => (ih _).bind fun _ _ => .inr rfl

theorem le_next (ds : Dataset) (s : Slicer) : Le (s.next .debug ds) (s.next .release ds) := by
  unfold Slicer.next
  split
  · exact .inr rfl
  split
  · exact (le_debugAssert _).bind fun _ _ => (le_add64 _ _).bind fun _ _ => .inr rfl
  refine (le_addAll _ _).bind fun start _ => (le_chunkAtCoord _ _).bind fun chunk _ => ?_
  simp only
  refine Le.skip (okp_contains _ _ _ _) fun _ _ => ?_
  refine Le.skip (okp_debugAssert _ _) fun _ _ => ?_
  rw [ok_bind]
  refine (le_chunkStartAux _ _ _ _).bind fun _ _ => (le_walk _ _ _ _ _).bind fun w _ =>
    (le_debugAssert _).bind fun _ _ => (le_add64 _ _).bind fun _ _ => ?_
  refine Le.skip (okp_product64 _ _) fun _ _ => ?_
  refine Le.skip (okp_debugAssert _ _) fun _ _ => .inr rfl

/-- The debug trace `t` ends in a panic, having yielded items the release trace yields as well, or
both are the same. -/
def TLe {α : Type} (t u : Trace α) : Prop := ((∃ f, t.ending = .panic f) ∧ t.items <+: u.items) ∨ t = u

theorem le_trace (ds : Dataset) (n : Nat) (s : Slicer) :
    TLe (Slicer.trace .debug ds n s) (Slicer.trace .release ds n s) := by
  induction n generalizing s with
  | zero => exact .inr rfl
  | succ n ih =>
    unfold Slicer.trace
    rcases le_next ds s with ⟨f, h⟩ | h
    · rw [h]; exact .inl ⟨⟨f, rfl⟩, List.nil_prefix⟩
    · rw [← h]
      cases hn : s.next .debug ds with
      | ok x =>
        cases x with
        | none => exact .inr rfl
        | some x =>
          obtain ⟨it, s'⟩ := x
          simp only
          rcases ih s' with ⟨h1, h2⟩ | h1
          · exact .inl ⟨h1, by simpa using h2⟩
          · rw [h1]; exact .inr rfl
      | _ => exact .inr rfl

theorem le_chunkSlicer (ds : Dataset) (ext : Extents) :
    Le (ds.chunkSlicer .debug ext) (ds.chunkSlicer .release ext) := by
  unfold Dataset.chunkSlicer
  cases ext.getStartCountSized ds.shape with
  | ok ic =>
  simp only [ok_bind]
  refine (le_exceeds _ _ _).bind fun oob _ => ?_
  split
  · exact .inr rfl
  · exact le_slicerNew _ _ _
  | _ => exact .inr rfl

theorem le_run (ds : Dataset) (s : Slicer) :
    TLe (Slicer.run .debug ds s) (Slicer.run .release ds s) := by
  unfold Slicer.run
  exact le_trace _ _ _

/-- The slices: debug panics at once, or both give traces, related by `TLe`. -/
theorem le_chunkSlices (ds : Dataset) (ext : Extents) :
    (∃ f, ds.chunkSlices .debug ext = .panic f) ∨
    (∃ t u, ds.chunkSlices .debug ext = ok t ∧ ds.chunkSlices .release ext = ok u ∧ TLe t u) ∨
    ((∀ t, ds.chunkSlices .debug ext ≠ ok t) ∧
      ds.chunkSlices .debug ext = ds.chunkSlices .release ext) := by
  unfold Dataset.chunkSlices
  rcases le_chunkSlicer ds ext with ⟨f, h⟩ | h
  · rw [h]; exact .inl ⟨f, rfl⟩
  · rw [← h]
    right
    cases ds.chunkSlicer .debug ext with
    | ok s => exact .inl ⟨Slicer.run .debug ds s, Slicer.run .release ds s, rfl, rfl, le_run _ _⟩
    | _ => right; simp

theorem le_groupScan (off : Nat) (l : List Item) :
    Le (groupScan .debug off l) (groupScan .release off l) := by
  induction l generalizing off with
  | nil => exact .inr rfl
  | cons it l ih =>
    exact (le_sub64 _ _).bind fun _ _ => (le_add64 _ _).bind fun _ _ => (ih _).bind fun _ _ => .inr rfl

theorem le_groupUnsorted (ds : Dataset) (ext : Extents) :
    Le (ds.groupUnsorted .debug ext) (ds.groupUnsorted .release ext) := by
  unfold Dataset.groupUnsorted
  rcases le_chunkSlices ds ext with ⟨f, h⟩ | ⟨t, u, h1, h2, h3⟩ | ⟨h1, h2⟩
  · rw [h]; exact .inl ⟨f, rfl⟩
  · rw [h1, h2, ok_bind, ok_bind]
    rcases h3 with ⟨⟨f, h3⟩, -⟩ | rfl
    · left
      rcases okp_groupScan .debug 0 t.items with ⟨l, hl⟩ | ⟨g, hl⟩
      · exact ⟨f, by rw [hl, ok_bind, h3]; rfl⟩
      · exact ⟨g, by rw [hl]; rfl⟩
    · exact (le_groupScan _ _).bind fun _ _ => .inr rfl
  · rw [← h2]
    cases h : ds.chunkSlices .debug ext with
    | ok t => exact absurd h (h1 t)
    | _ => exact .inr rfl

theorem le_chunkBytes (ds : Dataset) : Le (chunkBytes .debug ds) (chunkBytes .release ds) :=
  (le_product64 _).bind fun _ _ => le_mul64 _ _

theorem le_reqBytes (ds : Dataset) (ext : Extents) :
    Le (reqBytes .debug ds ext) (reqBytes .release ds ext) :=
  (Le.rfl' _).bind fun _ _ => (le_product64 _).bind fun _ _ => le_mul64 _ _

theorem le_groups (ds : Dataset) (ext : Extents) (sort : List GItem → List GItem) :
    Le (ds.groupChunkSlices .debug ext sort) (ds.groupChunkSlices .release ext sort) :=
  (le_groupUnsorted _ _).bind fun _ _ => .inr rfl

theorem le_decodeChunk (inflate : List Byte → Option (List Byte)) (raw : List Byte)
    (chunkSz dsz : Nat) (gz sh : Bool) :
    Le (decodeChunk .debug inflate raw chunkSz dsz gz sh)
      (decodeChunk .release inflate raw chunkSz dsz gz sh) :=
  (le_debugAssert _).bind fun _ _ => .inr rfl

theorem le_readChunk (io : Io) (file : List Byte) (addr size chunkSz dsz : Nat) (gz sh : Bool) :
    Le (readChunk .debug io file addr size chunkSz dsz gz sh)
      (readChunk .release io file addr size chunkSz dsz gz sh) :=
  (Le.rfl' _).bind fun _ _ => (Le.rfl' _).bind fun _ _ => le_decodeChunk _ _ _ _ _ _

theorem le_readChunkTokio (rt : Rt) (io : Io) (file : List Byte) (addr size chunkSz dsz : Nat)
    (gz sh : Bool) :
    Le (readChunkTokio .debug rt io file addr size chunkSz dsz gz sh)
      (readChunkTokio .release rt io file addr size chunkSz dsz gz sh) := by
  refine (Le.rfl' _).bind fun _ _ => (Le.rfl' _).bind fun _ _ => ?_
  unfold blockInPlace
  split
  · exact .inr rfl
  · exact le_decodeChunk _ _ _ _ _ _

/-- Outcome and state: debug panicked, or all is the same. -/
def PLe {α β : Type} (r q : Outcome α × β) : Prop := (∃ f, r.1 = .panic f) ∨ r = q

theorem le_loop {σ β : Type} {f g : σ → β → Outcome σ} (h : ∀ s b, Le (f s b) (g s b)) (s : σ)
    (l : List β) : PLe (loop f s l) (loop g s l) := by
  induction l generalizing s with
  | nil => exact .inr rfl
  | cons b l ih =>
    unfold loop
    rcases h s b with ⟨e, he⟩ | he
    · rw [he]; exact .inl ⟨e, rfl⟩
    · rw [← he]
      cases f s b with
      | ok s' => exact ih s'
      | _ => exact .inr rfl

/-- A loop over a prefix that stops early is the loop over everything. -/
theorem loop_prefix {σ β : Type} (f : σ → β → Outcome σ) (s : σ) (l m : List β) :
    (loop f s l).1 = ok () ∨ loop f s (l ++ m) = loop f s l := by
  induction l generalizing s with
  | nil => exact .inl rfl
  | cons b l ih =>
    rw [List.cons_append]
    unfold loop
    cases f s b with
    | ok s' => exact ih s'
    | _ => exact .inr rfl

/-- A loop over related traces. -/
theorem le_loop_trace {σ β : Type} {f g : σ → β → Outcome σ} (h : ∀ s b, Le (f s b) (g s b)) (s : σ)
    {t u : Trace β} (ht : TLe t u) :
    (∃ e, ((loop f s t.items).1 >>= fun _ => t.ending) = .panic e) ∨
    (t.ending = u.ending ∧ loop f s t.items = loop g s u.items) ∨
    ((loop f s t.items).1 ≠ ok () ∧ loop f s t.items = loop g s u.items) := by
  rcases ht with ⟨⟨e, he⟩, m, hm⟩ | rfl
  · rcases le_loop h s t.items with ⟨x, hx⟩ | hx
    · left; exact ⟨x, by rw [hx]; rfl⟩
    · rcases loop_prefix g s t.items m with h1 | h1
      · left; exact ⟨e, by rw [hx, h1, he]; rfl⟩
      · by_cases h2 : (loop f s t.items).1 = ok ()
        · left; exact ⟨e, by rw [h2, he]; rfl⟩
        · right; right
          exact ⟨h2, by rw [← hm, h1, hx]⟩
  · rcases le_loop h s t.items with ⟨x, hx⟩ | hx
    · left; exact ⟨x, by rw [hx]; rfl⟩
    · right; left; exact ⟨rfl, hx⟩

theorem le_cacheStep (io : Io) (file : List Byte) (ds : Dataset) (chunkSz : Nat) (s : CacheSt)
    (it : Item) :
    Le (cacheStep .debug io file ds chunkSz s it) (cacheStep .release io file ds chunkSz s it) := by
  unfold cacheStep
  refine (le_mul64 _ _).bind fun a _ => (le_mul64 _ _).bind fun b _ =>
    (le_debugAssert _).bind fun _ _ => (le_sub64 _ _).bind fun sz _ => ?_
  split
  · exact (le_debugAssert _).bind fun _ _ => (le_debugAssert _).bind fun _ _ => .inr rfl
  · exact (le_readChunk _ _ _ _ _ _ _ _).bind fun _ _ =>
      (le_debugAssert _).bind fun _ _ => (le_debugAssert _).bind fun _ _ => .inr rfl

theorem le_readTo (io : Io) (file : List Byte) (ds : Dataset) (rd : CacheReader) (ext : Extents)
    (dst : List Byte) :
    PLe (rd.readTo .debug io file ds ext dst) (rd.readTo .release io file ds ext dst) := by
  unfold CacheReader.readTo
  rcases le_reqBytes ds ext with ⟨f, h⟩ | h
  · rw [h]; left; exact ⟨f, by simp only [ok_bind, panic_bind]⟩
  rw [← h]
  cases reqBytes .debug ds ext with
  | ok vsz =>
    simp only [ok_bind]
    cases ensure (decide (vsz ≤ dst.length)) .capacity with
    | ok _ =>
      simp only [ok_bind]
      rcases le_chunkSlices ds ext with ⟨f, h⟩ | ⟨t, u, h1, h2, h3⟩ | ⟨h1, h2⟩
      · rw [h]; left; exact ⟨f, by simp only [ok_bind, panic_bind]⟩
      · rw [h1, h2]
        simp only [ok_bind]
        rcases le_loop_trace (le_cacheStep io file ds rd.chunkSz) ⟨rd.cache, 0, dst⟩ h3 with
          ⟨e, he⟩ | ⟨e1, e2⟩ | ⟨e1, e2⟩
        · left
          refine ⟨e, ?_⟩
          simp only
          rw [← Outcome.bind_assoc, he]; simp only [panic_bind]
        · right; rw [e1, e2]
        · right
          rw [← e2]
          cases hl : (loop (cacheStep .debug io file ds rd.chunkSz) ⟨rd.cache, 0, dst⟩ t.items).1 with
          | ok x => exact absurd hl e1
          | _ => simp only [ok_bind, err_bind, panic_bind, ub_bind, diverge_bind]
      · rw [← h2]
        cases h : ds.chunkSlices .debug ext with
        | ok t => exact absurd h (h1 t)
        | _ => right; simp only [ok_bind, err_bind, panic_bind, ub_bind, diverge_bind]
    | _ => right; simp only [ok_bind, err_bind, panic_bind, ub_bind, diverge_bind]
  | _ => right; simp only [ok_bind, err_bind, panic_bind, ub_bind, diverge_bind]

theorem le_withDataset (ds : Dataset) :
    Le (CacheReader.withDataset .debug ds) (CacheReader.withDataset .release ds) :=
  (le_chunkBytes _).bind fun _ _ => (Le.rfl' _).bind fun _ _ => .inr rfl

theorem le_directChunk (io : Io) (file : List Byte) (ds : Dataset) (chunkSz : Nat)
    (last : Option (Nat × List Byte)) (c : Chunk) :
    Le (directChunk .debug io file ds chunkSz last c) (directChunk .release io file ds chunkSz last c) := by
  unfold directChunk
  simp only
  split
  · split
    · exact .inr rfl
    · exact le_readChunk _ _ _ _ _ _ _ _
  · exact le_readChunk _ _ _ _ _ _ _ _

theorem le_directStep (io : Io) (file : List Byte) (ds : Dataset) (chunkSz : Nat) (s : DirectSt)
    (g : GItem) :
    Le (directStep .debug io file ds chunkSz s g) (directStep .release io file ds chunkSz s g) :=
  (le_directChunk _ _ _ _ _ _).bind fun _ _ => (le_mul64 _ _).bind fun _ _ =>
    (le_mul64 _ _).bind fun _ _ => (le_mul64 _ _).bind fun _ _ => (le_debugAssert _).bind fun _ _ =>
    (le_debugAssert _).bind fun _ _ => (le_sub64 _ _).bind fun _ _ => (le_add64 _ _).bind fun _ _ =>
    .inr rfl

theorem le_directReadTo (io : Io) (ds : Dataset) (sort : List GItem → List GItem) (ext : Extents)
    (dst : List Byte) :
    PLe (directReadTo .debug io ds sort ext dst) (directReadTo .release io ds sort ext dst) := by
  unfold directReadTo
  rcases le_chunkBytes ds with ⟨f, h⟩ | h
  · rw [h]; left; exact ⟨f, by simp only [panic_bind]⟩
  rw [← h]
  cases chunkBytes .debug ds with
  | ok csz =>
    simp only [ok_bind]
    rcases le_reqBytes ds ext with ⟨f, h⟩ | h
    · rw [h]; left; exact ⟨f, by simp only [panic_bind]⟩
    rw [← h]
    cases reqBytes .debug ds ext with
    | ok vsz =>
      simp only [ok_bind]
      cases ensure (decide (vsz ≤ dst.length)) .capacity with
      | ok _ =>
        simp only [ok_bind]
        rcases le_groups ds ext sort with ⟨f, h⟩ | h
        · rw [h]; left; exact ⟨f, by simp only [panic_bind]⟩
        rw [← h]
        cases ds.groupChunkSlices .debug ext sort with
        | ok groups =>
          simp only [ok_bind]
          cases io.file with
          | none => right; simp only [err_bind]
          | some file =>
            simp only
            rcases le_loop (le_directStep io file ds csz) ⟨none, dst⟩ groups with ⟨f, hf⟩ | hf
            · left; exact ⟨f, by rw [hf]; simp only [panic_bind]⟩
            · right; rw [hf]
        | _ => right; simp only [err_bind, panic_bind, ub_bind, diverge_bind]
      | _ => right; simp only [err_bind, panic_bind, ub_bind, diverge_bind]
    | _ => right; simp only [err_bind, panic_bind, ub_bind, diverge_bind]
  | _ => right; simp only [err_bind, panic_bind, ub_bind, diverge_bind]

/-! ## Parallel reads -/

theorem le_parSegment (ds : Dataset) (chunk : List Byte) (n : Nat) (ws : List Write) (g : GItem) :
    Le (parSegment .debug ds chunk n ws g) (parSegment .release ds chunk n ws g) :=
  (le_mul64 _ _).bind fun _ _ => (le_mul64 _ _).bind fun _ _ => (le_mul64 _ _).bind fun _ _ =>
    (le_debugAssert _).bind fun _ _ => (le_debugAssert _).bind fun _ _ =>
    (le_sub64 _ _).bind fun _ _ => .inr rfl

theorem parSegment_prefix {p : Profile} {ds : Dataset} {chunk : List Byte} {n : Nat}
    {ws ws' : List Write} {g : GItem} (h : parSegment p ds chunk n ws g = ok ws') : ws <+: ws' := by
  unfold parSegment at h
  obtain ⟨_, -, h⟩ := bind_eq_ok.1 h
  obtain ⟨_, -, h⟩ := bind_eq_ok.1 h
  obtain ⟨_, -, h⟩ := bind_eq_ok.1 h
  obtain ⟨_, -, h⟩ := bind_eq_ok.1 h
  obtain ⟨_, -, h⟩ := bind_eq_ok.1 h
  obtain ⟨_, -, h⟩ := bind_eq_ok.1 h
  split at h
  · simp at h
  · obtain ⟨_, -, h⟩ := bind_eq_ok.1 h
    split at h
    · obtain rfl := Outcome.ok.inj h; exact List.prefix_append _ _
    · simp at h

theorem parLoop_prefix {p : Profile} {ds : Dataset} {chunk : List Byte} {n : Nat}
    (ws : List Write) (l : List GItem) : ws <+: (loop (parSegment p ds chunk n) ws l).2 := by
  induction l generalizing ws with
  | nil => exact List.prefix_refl _
  | cons g l ih =>
    unfold loop
    cases h : parSegment p ds chunk n ws g with
    | ok ws' => exact (parSegment_prefix h).trans (ih ws')
    | _ => exact List.prefix_refl _

/-- A group in debug: the same as in release, or a panic after a prefix of its writes. -/
theorem le_parLoop (ds : Dataset) (chunk : List Byte) (n : Nat) (ws : List Write) (l : List GItem) :
    ((∃ f, (loop (parSegment .debug ds chunk n) ws l).1 = .panic f) ∧
      (loop (parSegment .debug ds chunk n) ws l).2 <+: (loop (parSegment .release ds chunk n) ws l).2) ∨
    loop (parSegment .debug ds chunk n) ws l = loop (parSegment .release ds chunk n) ws l := by
  induction l generalizing ws with
  | nil => exact .inr rfl
  | cons g l ih =>
    rcases le_parSegment ds chunk n ws g with ⟨f, hf⟩ | h
    · left
      have : loop (parSegment .debug ds chunk n) ws (g :: l) = (.panic f, ws) := by
        simp only [loop, hf]
      rw [this]
      exact ⟨⟨f, rfl⟩, parLoop_prefix _ _⟩
    · unfold loop
      rw [← h]
      cases parSegment .debug ds chunk n ws g with
      | ok ws' => exact ih ws'
      | _ => exact .inr rfl

theorem le_parGroup (io : Io) (ds : Dataset) (csz n : Nat) (g : List GItem) :
    ((∃ f, (parGroup .debug io ds csz n g).1 = .panic f) ∧
      (parGroup .debug io ds csz n g).2 <+: (parGroup .release io ds csz n g).2) ∨
    parGroup .debug io ds csz n g = parGroup .release io ds csz n g := by
  unfold parGroup
  cases io.file with
  | none => exact .inr rfl
  | some file =>
    cases g with
    | nil => exact .inr rfl
    | cons g gs =>
      simp only
      rcases le_readChunk io file g.chunk.addr g.chunk.size csz ds.dsize ds.gzip.isSome ds.shuffle with
        ⟨f, h⟩ | h
      · rw [h]; exact .inl ⟨⟨f, rfl⟩, List.nil_prefix⟩
      · rw [← h]
        cases readChunk .debug io file g.chunk.addr g.chunk.size csz ds.dsize ds.gzip.isSome
          ds.shuffle with
        | ok chunk => exact le_parLoop _ _ _ _ _
        | _ => exact .inr rfl

/-- More writes of the same groups: a rest of writes that completes the smaller list. -/
theorem flatMap_rest {α : Type} {l : List α} {f g : α → List Write} (h : ∀ a ∈ l, f a <+: g a) :
    ∃ rest, (l.flatMap f ++ rest).Perm (l.flatMap g) := by
  induction l with
  | nil => exact ⟨[], List.Perm.refl _⟩
  | cons a l ih =>
    obtain ⟨r, hr⟩ := ih fun x hx => h x (by simp [hx])
    obtain ⟨m, hm⟩ := h a (by simp)
    refine ⟨m ++ r, ?_⟩
    rw [List.flatMap_cons, List.flatMap_cons, ← hm]
    have h1 : (f a ++ l.flatMap f ++ (m ++ r)).Perm (f a ++ (m ++ (l.flatMap f ++ r))) := by
      rw [List.append_assoc]
      refine List.Perm.append_left _ ?_
      rw [← List.append_assoc, ← List.append_assoc]
      exact (List.perm_append_comm).append_right _
    refine h1.trans ?_
    rw [List.append_assoc]
    exact List.Perm.append_left _ (List.Perm.append_left _ hr)

theorem le_parPrelude (ds : Dataset) (sort : List GItem → List GItem) (ext : Extents) (n : Nat) :
    Le (parPrelude .debug ds sort ext n) (parPrelude .release ds sort ext n) :=
  (le_chunkBytes _).bind fun _ _ => (le_reqBytes _ _).bind fun _ _ => (Le.rfl' _).bind fun _ _ =>
    (le_groups _ _ _).bind fun _ _ => .inr rfl

theorem le_par {io : Io} {ds : Dataset} {sort : List GItem → List GItem} {ext : Extents}
    {dst : List Byte} {res : Outcome Nat × List Byte}
    (h : DirectReadToPar .debug io ds sort ext dst res) (hn : ∀ f, res.1 ≠ .panic f) :
    DirectReadToPar .release io ds sort ext dst res := by
  cases h with
  | early e he hne =>
    refine .early e ?_ hne
    rcases (le_parPrelude ds sort ext dst.length).bind (f := fun x => ok x.2.1)
      (g := fun x => ok x.2.1) (fun _ _ => .inr rfl) with ⟨f, hf⟩ | hf
    · rw [he] at hf; exact absurd hf (hn f)
    · rw [← hf]; exact he
  | ran csz vsz groups r dst' hpre hrun =>
    refine .ran csz vsz groups r dst' ((le_parPrelude ds sort ext dst.length).ok hpre) ?_
    have hg := fun g => le_parGroup io ds csz dst.length g
    have hpref : ∀ g, (parGroup .debug io ds csz dst.length g).2 <+:
        (parGroup .release io ds csz dst.length g).2 := by
      intro g
      rcases hg g with ⟨-, h⟩ | h
      · exact h
      · rw [h]; exact List.prefix_refl _
    have heq : ∀ g, (∀ f, (parGroup .debug io ds csz dst.length g).1 ≠ .panic f) →
        parGroup .debug io ds csz dst.length g = parGroup .release io ds csz dst.length g := by
      intro g h
      rcases hg g with ⟨⟨f, hf⟩, -⟩ | h'
      · exact absurd hf (h f)
      · exact h'
    cases hrun with
    | done ws hall hperm =>
      have : groups.map (parGroup .debug io ds csz dst.length) =
          groups.map (parGroup .release io ds csz dst.length) := by
        refine List.map_congr_left fun g hgm => heq g fun f hf => ?_
        have := hall _ (List.mem_map_of_mem hgm)
        rw [hf] at this; simp at this
      rw [this] at hall hperm
      exact .done ws hall hperm
    | failed r hr hne ws rest hsub =>
      obtain ⟨g, hgm, rfl⟩ := List.mem_map.1 hr
      have hnp : ∀ f, (parGroup .debug io ds csz dst.length g).1 ≠ .panic f := by
        intro f hf
        refine hn f ?_
        simp only
        rw [hf]; rfl
      obtain ⟨rest', hrest⟩ := flatMap_rest (l := groups)
        (f := fun g => (parGroup .debug io ds csz dst.length g).2)
        (g := fun g => (parGroup .release io ds csz dst.length g).2) fun g _ => hpref g
      rw [List.flatMap_map] at hsub
      have e := heq g hnp
      rw [e] at hne ⊢
      refine .failed _ (List.mem_map_of_mem hgm) hne ws (rest ++ rest') ?_
      rw [List.flatMap_map, ← List.append_assoc]
      exact (hsub.append_right _).trans hrest
    | race i j hij ri rj hi hj a b ha hb ho =>
      rw [List.getElem?_map] at hi hj
      obtain ⟨gi, hgi, rfl⟩ := Option.map_eq_some_iff.1 hi
      obtain ⟨gj, hgj, rfl⟩ := Option.map_eq_some_iff.1 hj
      exact .race i j hij _ _ (by rw [List.getElem?_map, hgi]; rfl) (by rw [List.getElem?_map, hgj]; rfl)
        a b ((hpref gi).subset ha) ((hpref gj).subset hb) ho

/-! ## Streams and values -/

theorem le_bslice (dsz : Nat) (it : Item) : Le (bslice .debug dsz it) (bslice .release dsz it) :=
  (le_mul64 _ _).bind fun _ _ => (le_mul64 _ _).bind fun _ _ => .inr rfl

theorem okp_mapM {α β : Type} {f : α → Outcome β} (h : ∀ a, OkOrPanic (f a)) (l : List α) :
    OkOrPanic (l.mapM f) := by
  induction l with
  | nil => exact okp_ok _
  | cons a l ih =>
    rw [List.mapM_cons]
    exact (h a).bind fun _ _ => ih.bind fun _ _ => okp_ok _

theorem le_streamSlices (ds : Dataset) (ext : Extents) :
    Le (streamSlices .debug ds ext) (streamSlices .release ds ext) := by
  unfold streamSlices
  rcases le_chunkSlices ds ext with ⟨f, h⟩ | ⟨t, u, h1, h2, h3⟩ | ⟨h1, h2⟩
  · rw [h]; exact .inl ⟨f, rfl⟩
  · rw [h1, h2, ok_bind, ok_bind]
    rcases h3 with ⟨⟨f, h3⟩, -⟩ | rfl
    · left
      have : OkOrPanic (t.items.mapM (bslice .debug ds.dsize)) := okp_mapM (fun it =>
        (okp_mul64 _ _ _).bind fun _ _ => (okp_mul64 _ _ _).bind fun _ _ => okp_ok _) _
      rcases this with ⟨l, hl⟩ | ⟨g, hl⟩
      · exact ⟨f, by rw [hl, ok_bind, h3]; rfl⟩
      · exact ⟨g, by rw [hl]; rfl⟩
    · exact (le_mapM (le_bslice _) _).bind fun _ _ => .inr rfl
  · rw [← h2]
    cases h : ds.chunkSlices .debug ext with
    | ok t => exact absurd h (h1 t)
    | _ => exact .inr rfl

theorem le_streamStep (rt : Rt) (io : Io) (file : List Byte) (ds : Dataset) (chunkSz : Nat)
    (factor : Outcome Nat) (conv : List Byte → Outcome (List Byte)) (s : StreamSt) (b : BSlice) :
    Le (streamStep .debug rt io file ds chunkSz factor conv s b)
      (streamStep .release rt io file ds chunkSz factor conv s b) := by
  unfold streamStep
  refine (Le.rfl' _).bind fun x _ => (le_mul64 _ _).bind fun _ _ => (le_mul64 _ _).bind fun _ _ =>
    (le_debugAssert _).bind fun _ _ => ?_
  split
  · exact (le_debugAssert _).bind fun _ _ => (le_debugAssert _).bind fun _ _ => .inr rfl
  · exact (le_readChunkTokio _ _ _ _ _ _ _ _ _).bind fun _ _ => (Le.rfl' _).bind fun _ _ =>
      (le_debugAssert _).bind fun _ _ => (le_debugAssert _).bind fun _ _ => .inr rfl

theorem streamStep_prefix {p : Profile} {rt : Rt} {io : Io} {file : List Byte} {ds : Dataset}
    {chunkSz : Nat} {factor : Outcome Nat} {conv : List Byte → Outcome (List Byte)} {s s' : StreamSt}
    {b : BSlice} (h : streamStep p rt io file ds chunkSz factor conv s b = ok s') : s.out <+: s'.out := by
  unfold streamStep at h
  obtain ⟨_, -, h⟩ := bind_eq_ok.1 h
  obtain ⟨_, -, h⟩ := bind_eq_ok.1 h
  obtain ⟨_, -, h⟩ := bind_eq_ok.1 h
  obtain ⟨_, -, h⟩ := bind_eq_ok.1 h
  split at h
  · obtain ⟨_, -, h⟩ := bind_eq_ok.1 h
    obtain ⟨_, -, h⟩ := bind_eq_ok.1 h
    obtain ⟨_, -, h⟩ := bind_eq_ok.1 h
    obtain rfl := Outcome.ok.inj h
    exact List.prefix_append _ _
  · obtain ⟨_, -, h⟩ := bind_eq_ok.1 h
    obtain ⟨_, -, h⟩ := bind_eq_ok.1 h
    obtain ⟨_, -, h⟩ := bind_eq_ok.1 h
    obtain ⟨_, -, h⟩ := bind_eq_ok.1 h
    obtain ⟨_, -, h⟩ := bind_eq_ok.1 h
    obtain rfl := Outcome.ok.inj h
    exact List.prefix_append _ _

theorem streamLoop_prefix {p : Profile} {rt : Rt} {io : Io} {file : List Byte} {ds : Dataset}
    {chunkSz : Nat} {factor : Outcome Nat} {conv : List Byte → Outcome (List Byte)} (s : StreamSt)
    (l : List BSlice) :
    s.out <+: (loop (streamStep p rt io file ds chunkSz factor conv) s l).2.out := by
  induction l generalizing s with
  | nil => exact List.prefix_refl _
  | cons b l ih =>
    unfold loop
    cases h : streamStep p rt io file ds chunkSz factor conv s b with
    | ok s' => exact (streamStep_prefix h).trans (ih s')
    | _ => exact List.prefix_refl _

theorem le_streamRun (rt : Rt) (io : Io) (ds : Dataset) (chunkSz cap : Nat) (factor : Outcome Nat)
    (conv : List Byte → Outcome (List Byte)) (l : List BSlice) :
    TLe (streamRun .debug rt io ds chunkSz cap factor conv l)
      (streamRun .release rt io ds chunkSz cap factor conv l) := by
  unfold streamRun
  cases io.file with
  | none => exact .inr rfl
  | some file =>
    simp only
    generalize (⟨⟨cap, []⟩, []⟩ : StreamSt) = s
    induction l generalizing s with
    | nil => exact .inr rfl
    | cons b l ih =>
      rcases le_streamStep rt io file ds chunkSz factor conv s b with ⟨f, hf⟩ | h
      · left
        have : loop (streamStep .debug rt io file ds chunkSz factor conv) s (b :: l) = (.panic f, s) := by
          simp only [loop, hf]
        rw [this]
        exact ⟨⟨f, rfl⟩, streamLoop_prefix _ _⟩
      · unfold loop
        rw [← h]
        cases streamStep .debug rt io file ds chunkSz factor conv s b with
        | ok s' => exact ih s'
        | _ => exact .inr rfl

/-- Streams: the call panics in debug, or fails alike, or gives related streams. -/
theorem le_stream {rt : Rt} {io : Io} {ds : Dataset} {ext : Extents} (factor : Outcome Nat)
    (conv : List Byte → Outcome (List Byte)) (S : Profile → Outcome (Trace (List Byte)))
    (hS : S = fun p => do
      let chunkSz ← chunkBytes p ds
      let slices ← streamSlices p ds ext
      let cap ← lruCap chunkSz
      ok (streamRun p rt io ds chunkSz cap factor conv slices)) :
    (∃ f, S .debug = .panic f) ∨ (∃ t u, S .debug = ok t ∧ S .release = ok u ∧ TLe t u) ∨
      S .debug = S .release := by
  rw [hS]
  simp only
  rcases le_chunkBytes ds with ⟨f, h⟩ | h
  · rw [h]; exact .inl ⟨f, rfl⟩
  rw [← h]
  cases chunkBytes .debug ds with
  | ok csz =>
    simp only [ok_bind]
    rcases le_streamSlices ds ext with ⟨f, h⟩ | h
    · rw [h]; exact .inl ⟨f, rfl⟩
    rw [← h]
    cases streamSlices .debug ds ext with
    | ok l =>
      simp only [ok_bind]
      cases lruCap csz with
      | ok cap => right; left; exact ⟨_, _, rfl, rfl, le_streamRun _ _ _ _ _ _ _ _⟩
      | _ => right; right; rfl
    | _ => right; right; rfl
  | _ => right; right; rfl

theorem le_valuesTo {h : Host} {t : Prim} {o : ByteOrder} {r q : ByteReader} {ext : Extents}
    {dst : List Byte} (hr : PLe (r ext dst) (q ext dst)) :
    PLe (valuesTo h t o r ext dst) (valuesTo h t o q ext dst) := by
  unfold valuesTo
  rcases hr with ⟨f, hf⟩ | hr
  · left
    cases hx : r ext dst with
    | mk x d =>
      rw [hx] at hf
      simp only at hf
      subst hf
      exact ⟨f, rfl⟩
  · right; rw [hr]

theorem le_values {h : Host} {t : Prim} {ds : Dataset} {r q : ByteReader} {ext : Extents}
    (hr : ∀ dst, PLe (r ext dst) (q ext dst)) :
    Le (values .debug h t ds r ext) (values .release h t ds q ext) := by
  unfold values
  refine (Le.rfl' _).bind fun _ _ => (le_product64 _).bind fun _ _ => (le_mul64 _ _).bind fun b _ => ?_
  simp only
  refine (Le.rfl' _).bind fun _ _ => (le_mul64 _ _).bind fun _ _ => (Le.rfl' _).bind fun _ _ =>
    (Le.rfl' _).bind fun n _ => ?_
  rcases le_valuesTo (h := h) (t := t) (o := ds.order) (hr (List.replicate n 0)) with ⟨f, hf⟩ | he
  · left; exact ⟨f, by rw [hf]; rfl⟩
  · right; rw [he]

theorem wf_release {ds : Dataset} (h : WF .debug ds) : WF .release ds :=
  { h with built := (le_new _ _ _ _ _ _ _).ok h.built }

end Hidefix.Proofs
