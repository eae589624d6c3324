import Verif.Proofs.Reads
import Verif.Model.Stream

/-!
# What a stream yields
-/

set_option autoImplicit false

namespace Hidefix.Proofs
open Hidefix Hidefix.Spec Outcome

/-- A chunk, read, decoded and converted by a stream. -/
def streamD (p : Profile) (rt : Rt) (io : Io) (file : List Byte) (ds : Dataset) (chunkSz : Nat)
    (conv : List Byte → Outcome (List Byte)) (c : Chunk) : Outcome (List Byte) :=
  readChunkTokio p rt io file c.addr c.size chunkSz ds.dsize ds.gzip.isSome ds.shuffle >>= conv

/-- Outside a current-thread runtime, streams read chunks like the other readers. -/
theorem readChunkTokio_eq {p : Profile} {rt : Rt} (hrt : rt ≠ .currentThread) (io : Io)
    (file : List Byte) (addr size chunkSz dsz : Nat) (gz sh : Bool) :
    readChunkTokio p rt io file addr size chunkSz dsz gz sh =
      readChunk p io file addr size chunkSz dsz gz sh := by
  unfold readChunkTokio readChunk blockInPlace
  cases rt with
  | currentThread => exact absurd rfl hrt
  | _ => rfl

theorem streamD_eq {p : Profile} {rt : Rt} (hrt : rt ≠ .currentThread) (io : Io)
    (file : List Byte) (ds : Dataset) (chunkSz : Nat) (conv : List Byte → Outcome (List Byte))
    (c : Chunk) : streamD p rt io file ds chunkSz conv c = rawD p io file ds chunkSz c >>= conv := by
  unfold streamD rawD; rw [readChunkTokio_eq hrt]

/-- One iteration without a cache. -/
def plainStep (p : Profile) (D : Chunk → Outcome (List Byte)) (factor : Outcome Nat)
    (out : List (List Byte)) (b : Chunk × BSlice) : Outcome (List (List Byte)) := do
  let x ← factor
  let start ← mul64 p b.2.start x
  let stop ← mul64 p b.2.stop x
  debugAssert p (decide (start ≤ stop))
  let cache ← D b.1
  debugAssert p (decide (start ≤ cache.length))
  debugAssert p (decide (stop ≤ cache.length))
  let src ← sliceOf cache start stop
  ok (out ++ [src])

theorem streamStep_sim {p : Profile} {rt : Rt} {io : Io} {file : List Byte} {ds : Dataset}
    {chunkSz cap : Nat} {factor : Outcome Nat} {conv : List Byte → Outcome (List Byte)}
    (hdet : AddrDet ds) {s : StreamSt} {b : Chunk × BSlice} (hb : b.1 ∈ ds.chunks)
    (ha : b.1.addr = b.2.addr) (hz : b.1.size = b.2.size)
    (hs : CacheInv ds (streamD p rt io file ds chunkSz conv) cap s.cache) :
    (streamStep p rt io file ds chunkSz factor conv s b.2 >>= fun s' => ok s'.out) =
      plainStep p (streamD p rt io file ds chunkSz conv) factor s.out b ∧
    ∀ s', streamStep p rt io file ds chunkSz factor conv s b.2 = ok s' →
      CacheInv ds (streamD p rt io file ds chunkSz conv) cap s'.cache := by
  unfold streamStep plainStep
  cases factor with
  | ok x =>
    simp only [ok_bind]
    cases mul64 p b.2.start x with
    | ok start =>
      simp only [ok_bind]
      cases mul64 p b.2.stop x with
      | ok stop =>
        simp only [ok_bind]
        cases debugAssert p (decide (start ≤ stop)) with
        | ok u =>
          simp only [ok_bind]
          cases hg : s.cache.get b.2.addr with
          | some vl =>
            obtain ⟨v, lru⟩ := vl
            obtain ⟨hinv, ch, hch, haddr, hD⟩ := hs.get hg
            have hD' : streamD p rt io file ds chunkSz conv b.1 = ok v := by
              rw [← hD]
              unfold streamD
              rw [haddr, ha, hdet ch hch b.1 hb (by rw [haddr, ha])]
            simp only [hD', ok_bind]
            constructor
            · simp only [Outcome.bind_assoc, ok_bind]
            · intro s' h
              obtain ⟨_, -, h⟩ := bind_eq_ok.1 h
              obtain ⟨_, -, h⟩ := bind_eq_ok.1 h
              obtain ⟨_, -, h⟩ := bind_eq_ok.1 h
              obtain rfl := Outcome.ok.inj h
              exact hinv
          | none =>
            simp only
            constructor
            · unfold streamD
              simp only [Outcome.bind_assoc, ok_bind, ha, hz]
            · intro s' h
              obtain ⟨v, hv, h⟩ := bind_eq_ok.1 h
              obtain ⟨w, hw, h⟩ := bind_eq_ok.1 h
              obtain ⟨_, -, h⟩ := bind_eq_ok.1 h
              obtain ⟨_, -, h⟩ := bind_eq_ok.1 h
              obtain ⟨_, -, h⟩ := bind_eq_ok.1 h
              obtain rfl := Outcome.ok.inj h
              simp only
              rw [← ha]
              refine hs.put hb ?_
              unfold streamD
              rw [ha, hz, hv, ok_bind, hw]
        | _ => simp
      | _ => simp
    | _ => simp
  | _ => simp

theorem loop_map {σ β γ : Type} (f : σ → β → Outcome σ) (g : γ → β) (s : σ) (l : List γ) :
    loop f s (l.map g) = loop (fun s c => f s (g c)) s l := by
  induction l generalizing s with
  | nil => rfl
  | cons c l ih =>
    simp only [List.map_cons, loop]
    cases f s (g c) with
    | ok s' => exact ih s'
    | _ => rfl

/-- The byte slice of an item. -/
def bOf (dsz : Nat) (it : Item) : BSlice := ⟨it.chunk.addr, it.chunk.size, it.start * dsz, it.stop * dsz⟩

theorem streamSlices_ok {p : Profile} {ds : Dataset} {ext : Extents} {items : List Item} {vsz : Nat}
    (h : Sliced p ds ext items vsz) : streamSlices p ds ext = ok (items.map (bOf ds.dsize)) := by
  unfold streamSlices
  rw [h.slices, ok_bind]
  simp only
  rw [mapM_ok _ (bOf ds.dsize)]
  · rfl
  · intro it hit
    have h1 := h.le it hit
    have h2 := h.lt it hit
    unfold bslice bOf
    rw [mul64_of_lt (Nat.lt_of_le_of_lt (Nat.mul_le_mul_right _ (Nat.le_of_lt h1)) h2), ok_bind,
      mul64_of_lt h2, ok_bind]

theorem plainStep_iff {p : Profile} {D : Chunk → Outcome (List Byte)} {dsz x : Nat}
    {out s' : List (List Byte)} {it : Item} (hle : it.start ≤ it.stop)
    (hlt : it.stop * (dsz * x) < W) :
    plainStep p D (ok x) out (it.chunk, bOf dsz it) = ok s' ↔
      Ready D (dsz * x) it.chunk it.stop ∧ s' = out ++ [bytesOf D (dsz * x) it] := by
  have hm : it.start * (dsz * x) ≤ it.stop * (dsz * x) := Nat.mul_le_mul_right _ hle
  have hd : it.stop * (dsz * x) - it.start * (dsz * x) = (it.stop - it.start) * (dsz * x) :=
    (Nat.sub_mul _ _ _).symm
  unfold plainStep
  simp only [bOf, ok_bind]
  rw [mul64_of_lt (by rw [Nat.mul_assoc]; omega), ok_bind, mul64_of_lt (by rw [Nat.mul_assoc]; omega),
    ok_bind, Nat.mul_assoc, Nat.mul_assoc]
  simp only [hm, decide_true, debugAssert_true, ok_bind]
  cases hD : D it.chunk with
  | ok v =>
    simp only [ok_bind, Ready, hD, Outcome.ok.injEq, exists_eq_left', bytesOf, valOf]
    by_cases hb : it.stop * (dsz * x) ≤ v.length
    · have ha : it.start * (dsz * x) ≤ v.length := by omega
      simp only [ha, hb, decide_true, debugAssert_true, ok_bind, sliceOf, hm, and_self, if_true,
        true_and, Outcome.ok.injEq, hd, part]
      exact ⟨Eq.symm, Eq.symm⟩
    · simp only [hb, decide_false, false_and, iff_false, sliceOf, and_false, if_false, panic_bind]
      intro h
      obtain ⟨_, -, h⟩ := bind_eq_ok.1 h
      obtain ⟨_, -, h⟩ := bind_eq_ok.1 h
      simp at h
  | _ => simp [Ready, hD]

theorem plainFold_iff {p : Profile} {D : Chunk → Outcome (List Byte)} {dsz x : Nat}
    {out s' : List (List Byte)} {items : List Item} (hle : ∀ it ∈ items, it.start ≤ it.stop)
    (hlt : ∀ it ∈ items, it.stop * (dsz * x) < W) :
    items.foldlM (fun s it => plainStep p D (ok x) s (it.chunk, bOf dsz it)) out = ok s' ↔
      (∀ it ∈ items, Ready D (dsz * x) it.chunk it.stop) ∧
      s' = out ++ items.map (bytesOf D (dsz * x)) := by
  induction items generalizing out with
  | nil => simp [eq_comm]
  | cons it its ih =>
    rw [List.foldlM_cons, bind_eq_ok]
    simp only [plainStep_iff (hle it (by simp)) (hlt it (by simp))]
    have ih' := fun out => ih (out := out) (fun a ha => hle a (by simp [ha]))
      (fun a ha => hlt a (by simp [ha]))
    constructor
    · rintro ⟨a, ⟨h1, rfl⟩, h2⟩
      obtain ⟨h3, rfl⟩ := (ih' _).1 h2
      simp only [List.mem_cons, forall_eq_or_imp, List.map_cons, List.append_assoc, List.cons_append,
        List.nil_append, and_true]
      exact ⟨h1, h3⟩
    · rintro ⟨h1, rfl⟩
      simp only [List.mem_cons, forall_eq_or_imp] at h1
      refine ⟨_, ⟨h1.1, rfl⟩, (ih' _).2 ⟨h1.2, ?_⟩⟩
      simp

/-- The generator: it ends well exactly when all chunks can be read; what it yields is always a
prefix of the bytes of the slices, all of them if it ends well. -/
theorem streamRun_spec {p : Profile} {rt : Rt} {io : Io} {file : List Byte} {ds : Dataset}
    {chunkSz cap x : Nat} {conv : List Byte → Outcome (List Byte)} {items : List Item}
    (hdet : AddrDet ds) (hfile : io.file = some file) (hcap : 0 < cap)
    (hle : ∀ it ∈ items, it.start ≤ it.stop) (hlt : ∀ it ∈ items, it.stop * (ds.dsize * x) < W)
    (hmem : ∀ it ∈ items, it.chunk ∈ ds.chunks) :
    let D := streamD p rt io file ds chunkSz conv
    let tr := streamRun p rt io ds chunkSz cap (ok x) conv (items.map (bOf ds.dsize))
    (tr.ending = ok () ↔ ∀ it ∈ items, Ready D (ds.dsize * x) it.chunk it.stop) ∧
    (tr.ending = ok () → tr.items = items.map (bytesOf D (ds.dsize * x))) ∧
    ∃ pre post, items = pre ++ post ∧ (∀ it ∈ pre, Ready D (ds.dsize * x) it.chunk it.stop) ∧
      tr.items = pre.map (bytesOf D (ds.dsize * x)) ∧
      (post ≠ [] → ∃ it its, post = it :: its ∧ ¬ Ready D (ds.dsize * x) it.chunk it.stop ∧
        tr.ending = (plainStep p D (ok x) [] (it.chunk, bOf ds.dsize it) >>= fun _ => ok ())) := by
  intro D tr
  have hsim := loop_sim (fun s it => streamStep p rt io file ds chunkSz (ok x) conv s (bOf ds.dsize it))
    (fun s it => plainStep p D (ok x) s (it.chunk, bOf ds.dsize it)) StreamSt.out
    (fun s => CacheInv ds D cap s.cache) items
    (fun s it hit hinv => streamStep_sim (b := (it.chunk, bOf ds.dsize it)) hdet (hmem it hit) rfl rfl
      hinv)
    ⟨⟨cap, []⟩, []⟩ ⟨rfl, hcap, by simp, by simp, by simp⟩
  obtain ⟨h1, h2, -⟩ := hsim
  have e1 : tr.ending =
      (loop (fun s it => plainStep p D (ok x) s (it.chunk, bOf ds.dsize it)) [] items).1 := by
    simp only [tr, streamRun, hfile, loop_map]; exact h1
  have e2 : tr.items =
      (loop (fun s it => plainStep p D (ok x) s (it.chunk, bOf ds.dsize it)) [] items).2 := by
    simp only [tr, streamRun, hfile, loop_map]; exact h2
  have key := fun s' => plainFold_iff (p := p) (D := D) (out := []) (s' := s') hle hlt
  simp only [List.nil_append] at key
  have hok : tr.ending = ok () ↔ ∀ it ∈ items, Ready D (ds.dsize * x) it.chunk it.stop := by
    rw [e1]
    constructor
    · intro h; exact ((key _).1 (loop_fst_ok h)).1
    · intro h; rw [loop_ok_iff.2 ((key _).2 ⟨h, rfl⟩)]
  have hitems : tr.ending = ok () → tr.items = items.map (bytesOf D (ds.dsize * x)) := by
    intro h
    rw [e2]
    rw [e1] at h
    exact ((key _).1 (loop_fst_ok h)).2
  refine ⟨hok, hitems, ?_⟩
  rcases loop_spec (fun s it => plainStep p D (ok x) s (it.chunk, bOf ds.dsize it)) [] items with
    ⟨s', h3, h4⟩ | ⟨pre, b, post, s', o, h3, h4, h5, h6, h7, -⟩
  · have := (key _).1 h3
    exact ⟨items, [], by simp, this.1, by rw [e2, h4, this.2], by simp⟩
  · have hp := (plainFold_iff (p := p) (D := D) (out := []) (s' := s')
      (fun it hit => hle it (by rw [h3]; simp [hit]))
      (fun it hit => hlt it (by rw [h3]; simp [hit]))).1 h4
    have hb := fun s1 => plainStep_iff (p := p) (D := D) (dsz := ds.dsize) (x := x) (out := s')
      (s' := s1) (it := b) (hle b (by rw [h3]; simp)) (hlt b (by rw [h3]; simp))
    refine ⟨pre, b :: post, h3, hp.1, by rw [e2, h7, hp.2, List.nil_append], fun _ =>
      ⟨b, post, rfl, ?_, ?_⟩⟩
    · intro hr
      exact h6 _ (h5 ▸ (hb _).2 ⟨hr, rfl⟩)
    · rw [e1, h7, ← h5]
      unfold plainStep
      simp only [Outcome.bind_assoc, ok_bind]

theorem streamBytes_spec {p : Profile} {rt : Rt} {io : Io} {file : List Byte} {ds : Dataset}
    {chunkSz vsz : Nat} {ext : Extents} {items : List Item} (hdet : AddrDet ds)
    (hfile : io.file = some file) (hc : chunkBytes p ds = ok chunkSz) (hpos : 0 < chunkSz)
    (h : Sliced p ds ext items vsz) (hrt : rt ≠ .currentThread) :
    ∃ tr, streamBytes p rt io ds ext = ok tr ∧
      (tr.ending = ok () ↔ ∀ it ∈ items, Ready (rawD p io file ds chunkSz) ds.dsize it.chunk it.stop) ∧
      (tr.ending = ok () → tr.items = items.map (bytesOf (rawD p io file ds chunkSz) ds.dsize)) ∧
      tr.items <+: items.map (bytesOf (rawD p io file ds chunkSz) ds.dsize) := by
  have hD : streamD p rt io file ds chunkSz ok = rawD p io file ds chunkSz := by
    funext c
    rw [streamD_eq hrt]; exact Outcome.bind_pure _
  have hs := streamRun_spec (p := p) (rt := rt) (io := io) (ds := ds) (chunkSz := chunkSz)
    (cap := max (33554432 / chunkSz) 1) (x := 1) (conv := ok) hdet hfile (by omega)
    (fun it hit => Nat.le_of_lt (h.le it hit)) (by rw [Nat.mul_one]; exact h.lt) h.mem
  simp only [Nat.mul_one, hD] at hs
  obtain ⟨h1, h2, pre, post, h3, -, h4, -⟩ := hs
  refine ⟨_, ?_, h1, h2, ?_⟩
  · unfold streamBytes
    rw [hc, ok_bind, streamSlices_ok h, ok_bind, lruCap_ok hpos, ok_bind]
  · rw [h4, h3, List.map_append]; exact List.prefix_append _ _

theorem streamXdr_spec {p : Profile} {rt : Rt} {hst : Host} {io : Io} {file : List Byte} {ds : Dataset}
    {chunkSz vsz x : Nat} {ext : Extents} {items : List Item} (hdet : AddrDet ds)
    (hfile : io.file = some file) (hc : chunkBytes p ds = ok chunkSz) (hpos : 0 < chunkSz)
    (h : Sliced p ds ext items vsz) (hrt : rt ≠ .currentThread) (hx : xdrFactor ds.dtype = ok x)
    (hlt : ∀ it ∈ items, it.stop * (ds.dsize * x) < W) :
    let D := fun c => rawD p io file ds chunkSz c >>= fun b => xdr hst b ds.dtype ds.order
    ∃ tr, streamXdr p rt hst io ds ext = ok tr ∧
      (tr.ending = ok () ↔ ∀ it ∈ items, Ready D (ds.dsize * x) it.chunk it.stop) ∧
      (tr.ending = ok () → tr.items = items.map (bytesOf D (ds.dsize * x))) ∧
      tr.items <+: items.map (bytesOf D (ds.dsize * x)) := by
  intro D
  have hD : streamD p rt io file ds chunkSz (fun c => xdr hst c ds.dtype ds.order) = D := by
    funext c
    rw [streamD_eq hrt]
  have hs := streamRun_spec (p := p) (rt := rt) (io := io) (ds := ds) (chunkSz := chunkSz)
    (cap := max (33554432 / chunkSz) 1) (x := x) (conv := fun c => xdr hst c ds.dtype ds.order)
    hdet hfile (by omega)
    (fun it hit => Nat.le_of_lt (h.le it hit)) hlt h.mem
  simp only [hD] at hs
  obtain ⟨h1, h2, pre, post, h3, -, h4, -⟩ := hs
  refine ⟨_, ?_, h1, h2, ?_⟩
  · unfold streamXdr
    rw [hc, ok_bind, streamSlices_ok h, ok_bind, lruCap_ok hpos, ok_bind, hx]
  · rw [h4, h3, List.map_append]; exact List.prefix_append _ _

end Hidefix.Proofs
