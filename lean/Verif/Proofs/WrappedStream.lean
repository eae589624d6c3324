import Verif.Proofs.WrappedPar
import Verif.Proofs.StreamRun

/-!
# Release builds, whatever the slices: streams
-/

set_option autoImplicit false

namespace Hidefix.Proofs
open Hidefix Hidefix.Spec Outcome

/-- The byte slice of an item in a release build. -/
def bN (dsz : Nat) (it : Item) : BSlice :=
  ⟨it.chunk.addr, it.chunk.size, it.start * dsz % W, it.stop * dsz % W⟩

theorem streamSlices_release {ds : Dataset} {ext : Extents} {items : List Item}
    (h : ds.chunkSlices .release ext = ok ⟨items, ok ()⟩) :
    streamSlices .release ds ext = ok (items.map (bN ds.dsize)) := by
  unfold streamSlices
  rw [h, ok_bind]
  simp only
  rw [mapM_ok _ (bN ds.dsize)]
  · rfl
  · intro it _
    unfold bslice bN
    rw [mul64_release, ok_bind, mul64_release, ok_bind]

theorem plainStep_release {D : Chunk → Outcome (List Byte)} {dsz : Nat}
    {out s' : List (List Byte)} {it : Item} :
    plainStep .release D (ok 1) out (it.chunk, bN dsz it) = ok s' ↔
      ((normI dsz it).start ≤ (normI dsz it).stop ∧ Ready D 1 it.chunk (normI dsz it).stop) ∧
      s' = out ++ [bytesN D dsz it] := by
  unfold plainStep
  simp only [bN, ok_bind, mul64_release, mod_mod_W, debugAssert_release, normI, bytesN, bytesOf,
    part_one]
  generalize it.start * dsz % W = a
  generalize it.stop * dsz % W = b
  cases hD : D it.chunk with
  | ok v =>
    simp only [ok_bind, Ready, hD, valOf, Outcome.ok.injEq, exists_eq_left', Nat.mul_one, sliceOf]
    by_cases h : a ≤ b ∧ b ≤ v.length
    · rw [if_pos h, ok_bind]
      simp only [h, and_self, true_and, Outcome.ok.injEq]
      exact eq_comm
    · rw [if_neg h]
      simp [h]
  | _ => simp [Ready, hD]

theorem plainFold_release {D : Chunk → Outcome (List Byte)} {dsz : Nat} {items : List Item}
    {out s' : List (List Byte)} :
    items.foldlM (fun s it => plainStep .release D (ok 1) s (it.chunk, bN dsz it)) out = ok s' ↔
      (∀ it ∈ items.map (normI dsz), it.start ≤ it.stop ∧ Ready D 1 it.chunk it.stop) ∧
      s' = out ++ items.map (bytesN D dsz) := by
  induction items generalizing out with
  | nil => simp [eq_comm]
  | cons it its ih =>
    rw [List.foldlM_cons, bind_eq_ok]
    simp only [plainStep_release, List.map_cons, List.mem_cons, forall_eq_or_imp]
    constructor
    · rintro ⟨a, ⟨h1, rfl⟩, h2⟩
      obtain ⟨h3, rfl⟩ := ih.1 h2
      exact ⟨⟨h1, h3⟩, by simp⟩
    · rintro ⟨⟨h1, h2⟩, rfl⟩
      exact ⟨_, ⟨h1, rfl⟩, ih.2 ⟨h2, by simp⟩⟩

/-- A stream of bytes in a release build: when it ends well, and what it yields. -/
theorem streamBytes_release {rt : Rt} {io : Io} {file : List Byte} {ds : Dataset}
    {chunkSz : Nat} {ext : Extents} {items : List Item} (hdet : AddrDet ds)
    (hfile : io.file = some file) (hc : chunkBytes .release ds = ok chunkSz) (hpos : 0 < chunkSz)
    (hs : ds.chunkSlices .release ext = ok ⟨items, ok ()⟩) (hrt : rt ≠ .currentThread) :
    ∃ tr, streamBytes .release rt io ds ext = ok tr ∧
      (tr.ending = ok () ↔ ∀ it ∈ items.map (normI ds.dsize),
        it.start ≤ it.stop ∧ Ready (rawD .release io file ds chunkSz) 1 it.chunk it.stop) ∧
      (tr.ending = ok () → tr.items = items.map (bytesN (rawD .release io file ds chunkSz) ds.dsize)) := by
  have hD : streamD .release rt io file ds chunkSz ok = rawD .release io file ds chunkSz := by
    funext c
    rw [streamD_eq hrt]; exact Outcome.bind_pure _
  have hmem := chunkSlices_mem hs
  have hsim := loop_sim
    (fun s it => streamStep .release rt io file ds chunkSz (ok 1) ok s (bN ds.dsize it))
    (fun s it => plainStep .release (streamD .release rt io file ds chunkSz ok) (ok 1) s
      (it.chunk, bN ds.dsize it)) StreamSt.out
    (fun s => CacheInv ds (streamD .release rt io file ds chunkSz ok)
      (max (33554432 / chunkSz) 1) s.cache) items
    (fun s it hit hinv => streamStep_sim (b := (it.chunk, bN ds.dsize it)) hdet (hmem it hit) rfl rfl
      hinv)
    ⟨⟨max (33554432 / chunkSz) 1, []⟩, []⟩ ⟨rfl, by omega, by simp, by simp, by simp⟩
  obtain ⟨h1, h2, -⟩ := hsim
  have key := fun s' => plainFold_release (D := rawD .release io file ds chunkSz) (dsz := ds.dsize)
    (items := items) (out := []) (s' := s')
  simp only [List.nil_append] at key
  refine ⟨_, by
    unfold streamBytes
    rw [hc, ok_bind, streamSlices_release hs, ok_bind, lruCap_ok hpos, ok_bind], ?_, ?_⟩
  · simp only [streamRun, hfile, loop_map]
    rw [h1, hD]
    constructor
    · intro h; exact ((key _).1 (loop_fst_ok h)).1
    · intro h; rw [loop_ok_iff.2 ((key _).2 ⟨h, rfl⟩)]
  · simp only [streamRun, hfile, loop_map]
    rw [h1, h2, hD]
    intro h
    exact ((key _).1 (loop_fst_ok h)).2

theorem plainStep_factor {D : Chunk → Outcome (List Byte)} {dsz x : Nat} {out : List (List Byte)}
    {it : Item} : plainStep .release D (ok x) out (it.chunk, bN dsz it) =
      plainStep .release D (ok 1) out (it.chunk, bN (dsz * x) it) := by
  unfold plainStep
  simp only [bN, ok_bind, mul64_release, mod_mod_W, Nat.mod_mul_mod, Nat.mul_assoc, Nat.mul_one]

/-- An XDR stream in a release build: when it ends well, and what it yields. -/
theorem streamXdr_release {rt : Rt} {hst : Host} {io : Io} {file : List Byte} {ds : Dataset}
    {chunkSz x : Nat} {ext : Extents} {items : List Item} (hdet : AddrDet ds)
    (hfile : io.file = some file) (hc : chunkBytes .release ds = ok chunkSz) (hpos : 0 < chunkSz)
    (hs : ds.chunkSlices .release ext = ok ⟨items, ok ()⟩) (hrt : rt ≠ .currentThread)
    (hx : xdrFactor ds.dtype = ok x) :
    let D := fun c => rawD .release io file ds chunkSz c >>= fun b => xdr hst b ds.dtype ds.order
    ∃ tr, streamXdr .release rt hst io ds ext = ok tr ∧
      (tr.ending = ok () ↔ ∀ it ∈ items.map (normI (ds.dsize * x)),
        it.start ≤ it.stop ∧ Ready D 1 it.chunk it.stop) ∧
      (tr.ending = ok () → tr.items = items.map (bytesN D (ds.dsize * x))) := by
  intro D
  have hD : streamD .release rt io file ds chunkSz (fun c => xdr hst c ds.dtype ds.order) = D := by
    funext c
    rw [streamD_eq hrt]
  have hmem := chunkSlices_mem hs
  have hsim := loop_sim
    (fun s it => streamStep .release rt io file ds chunkSz (ok x)
      (fun c => xdr hst c ds.dtype ds.order) s (bN ds.dsize it))
    (fun s it => plainStep .release (streamD .release rt io file ds chunkSz
      fun c => xdr hst c ds.dtype ds.order) (ok x) s (it.chunk, bN ds.dsize it)) StreamSt.out
    (fun s => CacheInv ds (streamD .release rt io file ds chunkSz fun c => xdr hst c ds.dtype ds.order)
      (max (33554432 / chunkSz) 1) s.cache) items
    (fun s it hit hinv => streamStep_sim (b := (it.chunk, bN ds.dsize it)) hdet (hmem it hit) rfl rfl
      hinv)
    ⟨⟨max (33554432 / chunkSz) 1, []⟩, []⟩ ⟨rfl, by omega, by simp, by simp, by simp⟩
  obtain ⟨h1, h2, -⟩ := hsim
  have key := fun s' => plainFold_release (D := D) (dsz := ds.dsize * x)
    (items := items) (out := []) (s' := s')
  simp only [List.nil_append] at key
  have hp : (fun (s : List (List Byte)) (it : Item) => plainStep .release D (ok x) s
      (it.chunk, bN ds.dsize it)) = fun s it => plainStep .release D (ok 1) s
      (it.chunk, bN (ds.dsize * x) it) := by
    funext s it
    exact plainStep_factor
  rw [hD, hp] at h1 h2
  refine ⟨_, by
    unfold streamXdr
    rw [hc, ok_bind, streamSlices_release hs, ok_bind, lruCap_ok hpos, ok_bind, hx], ?_, ?_⟩
  · simp only [streamRun, hfile, loop_map]
    rw [h1]
    constructor
    · intro h; exact ((key _).1 (loop_fst_ok h)).1
    · intro h; rw [loop_ok_iff.2 ((key _).2 ⟨h, rfl⟩)]
  · simp only [streamRun, hfile, loop_map]
    rw [h1, h2]
    intro h
    exact ((key _).1 (loop_fst_ok h)).2

end Hidefix.Proofs
