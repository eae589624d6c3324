import Verif.Proofs.Writes
import Verif.Proofs.General

/-!
# What every reader does with the slices
-/

set_option autoImplicit false

namespace Hidefix.Proofs
open Hidefix Hidefix.Spec Outcome

/-- Value of a successful call. -/
def valOf {α : Type} (d : α) : Outcome α → α
  | ok v => v
  | _ => d

/-- Decoded bytes of positions `a..b`. -/
def part (dsz : Nat) (v : List Byte) (a b : Nat) : List Byte := (v.drop (a * dsz)).take ((b - a) * dsz)

theorem part_length {dsz a b : Nat} {v : List Byte} (hab : a ≤ b) (h : b * dsz ≤ v.length) :
    (part dsz v a b).length = (b - a) * dsz := by
  have : a * dsz + (b - a) * dsz = b * dsz := by rw [← Nat.add_mul]; congr 1; omega
  simp only [part, List.length_take, List.length_drop]; omega

/-- The chunk of a slice decodes to enough bytes. -/
def Ready (D : Chunk → Outcome (List Byte)) (dsz : Nat) (c : Chunk) (stop : Nat) : Prop :=
  ∃ v, D c = ok v ∧ stop * dsz ≤ v.length

/-- The write a slice causes. -/
def wr (D : Chunk → Outcome (List Byte)) (dsz : Nat) (g : GItem) : Write :=
  ⟨g.current * dsz, part dsz (valOf [] (D g.chunk)) g.start g.stop⟩

/-- The bytes a slice stands for. -/
def bytesOf (D : Chunk → Outcome (List Byte)) (dsz : Nat) (it : Item) : List Byte :=
  part dsz (valOf [] (D it.chunk)) it.start it.stop

theorem bytesOf_length {D : Chunk → Outcome (List Byte)} {dsz : Nat} {it : Item}
    (hab : it.start ≤ it.stop) (h : Ready D dsz it.chunk it.stop) :
    (bytesOf D dsz it).length = (it.stop - it.start) * dsz := by
  obtain ⟨v, hv, hl⟩ := h
  unfold bytesOf; rw [hv]; exact part_length hab hl

/-- The slices with the positions they are written to. -/
def tile : Nat → List Item → List GItem
  | _, [] => []
  | off, it :: its => ⟨it.chunk, off, it.start, it.stop⟩ :: tile (off + (it.stop - it.start)) its

theorem total_cons (it : Item) (its : List Item) :
    total (it :: its) = (it.stop - it.start) + total its := by simp [total]

theorem tile_bounds {items : List Item} {off : Nat} {g : GItem} (hg : g ∈ tile off items) :
    off ≤ g.current ∧ g.current + (g.stop - g.start) ≤ off + total items := by
  induction items generalizing off with
  | nil => simp [tile] at hg
  | cons it its ih =>
    simp only [tile, List.mem_cons] at hg
    rw [total_cons]
    rcases hg with rfl | hg
    · simp
    · have := ih hg; omega

theorem tile_mem {items : List Item} {off : Nat} {g : GItem} (hg : g ∈ tile off items) :
    (⟨g.chunk, g.start, g.stop⟩ : Item) ∈ items := by
  induction items generalizing off with
  | nil => simp [tile] at hg
  | cons it its ih =>
    simp only [tile, List.mem_cons] at hg
    rcases hg with rfl | hg
    · simp
    · simp [ih hg]

theorem mem_tile {items : List Item} {it : Item} (off : Nat) (h : it ∈ items) :
    ∃ g ∈ tile off items, g.chunk = it.chunk ∧ g.start = it.start ∧ g.stop = it.stop := by
  induction items generalizing off with
  | nil => simp at h
  | cons a its ih =>
    simp only [List.mem_cons] at h
    rcases h with rfl | h
    · exact ⟨⟨it.chunk, off, it.start, it.stop⟩, by simp [tile], rfl, rfl, rfl⟩
    · obtain ⟨g, hg, h⟩ := ih (off + (a.stop - a.start)) h
      exact ⟨g, by simp [tile, hg], h⟩

theorem tile_ordered (items : List Item) (off : Nat) :
    (tile off items).Pairwise fun a b => a.current + (a.stop - a.start) ≤ b.current := by
  induction items generalizing off with
  | nil => exact .nil
  | cons it its ih =>
    simp only [tile, List.pairwise_cons]
    exact ⟨fun b hb => (tile_bounds hb).1, ih _⟩

theorem groupScan_tile {p : Profile} (items : List Item) (off : Nat)
    (hle : ∀ it ∈ items, it.start ≤ it.stop) (hW : off + total items < W) :
    groupScan p off items = ok (tile off items) := by
  induction items generalizing off with
  | nil => rfl
  | cons it its ih =>
    rw [total_cons] at hW
    simp only [groupScan, tile]
    rw [sub64_of_le (hle it (by simp)), ok_bind, add64_of_lt (by omega), ok_bind,
      ih _ (fun x hx => hle x (by simp [hx])) (by omega), ok_bind]

/-- One slice, decoded without any cache. -/
def pureStep (p : Profile) (D : Chunk → Outcome (List Byte)) (dsz : Nat) (dst : List Byte)
    (g : GItem) : Outcome (List Byte) := do
  let cache ← D g.chunk
  let start ← mul64 p g.start dsz
  let stop ← mul64 p g.stop dsz
  let current ← mul64 p g.current dsz
  debugAssert p (decide (start ≤ cache.length))
  debugAssert p (decide (stop ≤ cache.length))
  let sz ← sub64 p stop start
  let hi ← add64 p current sz
  let src ← sliceOf cache start stop
  copyTo dst current hi src

/-- Arithmetic on a slice does not wrap. -/
structure Tame (dsz n : Nat) (g : GItem) : Prop where
  le : g.start ≤ g.stop
  lt : g.stop * dsz < W
  fits : (g.current + (g.stop - g.start)) * dsz ≤ n

theorem slice_copy {p : Profile} {dsz cur a b : Nat} {v dst : List Byte}
    (hab : a ≤ b) (hcur : cur + (b - a) * dsz ≤ dst.length) (dst' : List Byte) :
    (do debugAssert p (decide (a * dsz ≤ v.length))
        debugAssert p (decide (b * dsz ≤ v.length))
        let src ← sliceOf v (a * dsz) (b * dsz)
        copyTo dst cur (cur + (b - a) * dsz) src) = ok dst' ↔
    b * dsz ≤ v.length ∧ dst' = blit dst cur (part dsz v a b) := by
  have hm : a * dsz ≤ b * dsz := Nat.mul_le_mul_right _ hab
  by_cases hb : b * dsz ≤ v.length
  · have ha : a * dsz ≤ v.length := by omega
    have hl := part_length hab hb
    have hd : b * dsz - a * dsz = (b - a) * dsz := (Nat.sub_mul _ _ _).symm
    simp only [ha, hb, decide_true, debugAssert_true, ok_bind, sliceOf, hm, and_self, if_true,
      true_and, copyTo, hd]
    rw [show List.take ((b - a) * dsz) (List.drop (a * dsz) v) = part dsz v a b from rfl, hl,
      if_pos ⟨by omega, hcur, by omega⟩]
    constructor
    · intro h; exact (Outcome.ok.inj h).symm
    · rintro rfl; rfl
  · simp only [hb, decide_false, false_and, iff_false]
    intro h
    obtain ⟨_, -, h⟩ := bind_eq_ok.1 h
    obtain ⟨_, hd, h⟩ := bind_eq_ok.1 h
    obtain ⟨_, hs, h⟩ := bind_eq_ok.1 h
    unfold sliceOf at hs
    rw [if_neg (by omega)] at hs
    simp at hs

theorem pureStep_iff {p : Profile} {D : Chunk → Outcome (List Byte)} {dsz n : Nat}
    {dst dst' : List Byte} {g : GItem} (ht : Tame dsz n g) (hn : n ≤ dst.length) (hW : n < W) :
    pureStep p D dsz dst g = ok dst' ↔
      Ready D dsz g.chunk g.stop ∧ dst' = blit dst (wr D dsz g).off (wr D dsz g).bytes := by
  obtain ⟨hle, hlt, hfit⟩ := ht
  have hm : g.start * dsz ≤ g.stop * dsz := Nat.mul_le_mul_right _ hle
  have hd : g.stop * dsz - g.start * dsz = (g.stop - g.start) * dsz := (Nat.sub_mul _ _ _).symm
  rw [Nat.add_mul] at hfit
  unfold pureStep
  cases hD : D g.chunk with
  | ok v =>
    simp only [ok_bind]
    rw [mul64_of_lt (by omega), ok_bind, mul64_of_lt hlt, ok_bind, mul64_of_lt (by omega), ok_bind,
      sub64_of_le hm, hd]
    simp only [ok_bind]
    rw [add64_of_lt (by omega)]
    simp only [ok_bind]
    rw [slice_copy hle (by omega)]
    simp [Ready, hD, wr, valOf]
  | err e => simp [Ready, hD]
  | panic e => simp [Ready, hD]
  | ub => simp [Ready, hD]
  | diverge => simp [Ready, hD]

theorem wr_inRange {D : Chunk → Outcome (List Byte)} {dsz n : Nat} {g : GItem}
    (ht : Tame dsz n g) : InRange n (wr D dsz g) := by
  have := ht.fits
  rw [Nat.add_mul] at this
  unfold InRange wr
  simp only [part, List.length_take]
  omega

theorem wr_disj {D : Chunk → Outcome (List Byte)} {dsz : Nat} {a b : GItem}
    (h : a.current + (a.stop - a.start) ≤ b.current) : Disj (wr D dsz a) (wr D dsz b) := by
  rintro ⟨i, ⟨h1, h2⟩, h3, -⟩
  have := Nat.mul_le_mul_right dsz h
  rw [Nat.add_mul] at this
  simp only [wr, part, List.length_take] at h1 h2 h3
  omega

/-- All slices of a list handled one after the other: success exactly if all chunks decode. -/
theorem pureFold_iff {p : Profile} {D : Chunk → Outcome (List Byte)} {dsz n : Nat}
    {gs : List GItem} {dst dst' : List Byte} (ht : ∀ g ∈ gs, Tame dsz n g) (hn : n ≤ dst.length)
    (hW : n < W) :
    gs.foldlM (pureStep p D dsz) dst = ok dst' ↔
      (∀ g ∈ gs, Ready D dsz g.chunk g.stop) ∧ dst' = applyWrites dst (gs.map (wr D dsz)) := by
  induction gs generalizing dst with
  | nil => simp [applyWrites, eq_comm]
  | cons g gs ih =>
    rw [List.foldlM_cons, bind_eq_ok]
    have hr := wr_inRange (D := D) (ht g (by simp))
    simp only [pureStep_iff (ht g (by simp)) hn hW]
    have hlen : (blit dst (wr D dsz g).off (wr D dsz g).bytes).length = dst.length :=
      blit_length (Nat.le_trans hr hn)
    have ih' := ih (dst := blit dst (wr D dsz g).off (wr D dsz g).bytes)
      (fun x hx => ht x (by simp [hx])) (by rw [hlen]; exact hn)
    constructor
    · rintro ⟨_, ⟨h1, rfl⟩, h2⟩
      rw [ih'] at h2
      exact ⟨by simpa using ⟨h1, h2.1⟩, h2.2⟩
    · rintro ⟨h1, h2⟩
      simp only [List.mem_cons, forall_eq_or_imp] at h1
      exact ⟨_, ⟨h1.1, rfl⟩, ih'.2 ⟨h1.2, h2⟩⟩

/-- Writing all tiles is writing one block. -/
theorem applyWrites_tile {D : Chunk → Outcome (List Byte)} {dsz : Nat} {items : List Item}
    {off : Nat} {dst : List Byte} (hle : ∀ it ∈ items, it.start ≤ it.stop)
    (hr : ∀ it ∈ items, Ready D dsz it.chunk it.stop)
    (hn : (off + total items) * dsz ≤ dst.length) :
    applyWrites dst ((tile off items).map (wr D dsz)) =
      blit dst (off * dsz) (items.flatMap (bytesOf D dsz)) ∧
    (items.flatMap (bytesOf D dsz)).length = total items * dsz := by
  induction items generalizing off dst with
  | nil => simp [tile, applyWrites, blit_nil, total]
  | cons it its ih =>
    have hl := bytesOf_length (hle it (by simp)) (hr it (by simp))
    rw [total_cons, ← Nat.add_assoc] at hn
    have hn' : off * dsz + (bytesOf D dsz it).length ≤ dst.length := by
      rw [hl, ← Nat.add_mul]
      exact Nat.le_trans (Nat.mul_le_mul_right _ (by omega)) hn
    have hlen : (blit dst (off * dsz) (bytesOf D dsz it)).length = dst.length := blit_length hn'
    obtain ⟨i1, i2⟩ := ih (off := off + (it.stop - it.start))
      (dst := blit dst (off * dsz) (bytesOf D dsz it)) (fun x hx => hle x (by simp [hx]))
      (fun x hx => hr x (by simp [hx])) (by rw [hlen]; exact hn)
    simp only [tile, List.map_cons, List.flatMap_cons]
    rw [applyWrites_cons]
    have hw : (wr D dsz ⟨it.chunk, off, it.start, it.stop⟩) = ⟨off * dsz, bytesOf D dsz it⟩ := rfl
    rw [hw]
    refine ⟨?_, by rw [List.length_append, hl, i2, total_cons, Nat.add_mul]⟩
    rw [i1, Nat.add_mul, ← hl, blit_blit]
    rw [hl, i2, ← Nat.add_mul, ← Nat.add_mul]; exact hn

/-- A run of the slicer whose slices can be handled without arithmetic overflow. -/
structure Sliced (p : Profile) (ds : Dataset) (ext : Extents) (items : List Item) (vsz : Nat) :
    Prop where
  slices : ds.chunkSlices p ext = ok ⟨items, ok ()⟩
  req : reqBytes p ds ext = ok vsz
  le : ∀ it ∈ items, it.start < it.stop
  lt : ∀ it ∈ items, it.stop * ds.dsize < W
  mem : ∀ it ∈ items, it.chunk ∈ ds.chunks
  fits : total items * ds.dsize ≤ vsz
  totW : total items < W
  vszW : vsz < W

theorem Sliced.tame {p : Profile} {ds : Dataset} {ext : Extents} {items : List Item} {vsz : Nat}
    (h : Sliced p ds ext items vsz) : ∀ g ∈ tile 0 items, Tame ds.dsize vsz g := by
  intro g hg
  have hm := tile_mem hg
  have hb := (tile_bounds hg).2
  refine ⟨Nat.le_of_lt (h.le _ hm), h.lt _ hm, Nat.le_trans (Nat.mul_le_mul_right _ ?_) h.fits⟩
  omega

theorem Sliced.grouped {p : Profile} {ds : Dataset} {ext : Extents} {items : List Item} {vsz : Nat}
    (h : Sliced p ds ext items vsz) : ds.groupUnsorted p ext = ok (tile 0 items) := by
  unfold Dataset.groupUnsorted
  rw [h.slices, ok_bind]
  dsimp only
  rw [groupScan_tile items 0 (fun it hit => Nat.le_of_lt (h.le it hit)) (by have := h.totW; omega)]
  rfl

theorem Sliced.ready_iff {p : Profile} {ds : Dataset} {ext : Extents} {items : List Item}
    {vsz : Nat} (_h : Sliced p ds ext items vsz) {D : Chunk → Outcome (List Byte)} :
    (∀ g ∈ tile 0 items, Ready D ds.dsize g.chunk g.stop) ↔
      ∀ it ∈ items, Ready D ds.dsize it.chunk it.stop := by
  constructor
  · intro hr it hit
    obtain ⟨g, hg, h1, -, h3⟩ := mem_tile 0 hit
    rw [← h1, ← h3]; exact hr g hg
  · intro hr g hg
    exact hr _ (tile_mem hg)

/-- Any arrangement of the tiles writes the same block. -/
theorem Sliced.writes {p : Profile} {ds : Dataset} {ext : Extents} {items : List Item} {vsz : Nat}
    (h : Sliced p ds ext items vsz) {D : Chunk → Outcome (List Byte)} {ws : List Write}
    {dst : List Byte} (hr : ∀ it ∈ items, Ready D ds.dsize it.chunk it.stop)
    (hp : ws.Perm ((tile 0 items).map (wr D ds.dsize))) (hn : vsz ≤ dst.length) :
    applyWrites dst ws = blit dst 0 (items.flatMap (bytesOf D ds.dsize)) := by
  have hr' : ∀ w ∈ (tile 0 items).map (wr D ds.dsize), InRange dst.length w := by
    intro w hw
    obtain ⟨g, hg, rfl⟩ := List.mem_map.1 hw
    exact Nat.le_trans (wr_inRange (h.tame g hg)) hn
  have hd : ((tile 0 items).map (wr D ds.dsize)).Pairwise Disj := by
    rw [List.pairwise_map]
    exact (tile_ordered items 0).imp wr_disj
  rw [← applyWrites_perm hp.symm hr' hd,
    (applyWrites_tile (fun it hit => Nat.le_of_lt (h.le it hit)) hr
      (by rw [Nat.zero_add]; exact Nat.le_trans h.fits hn)).1, Nat.zero_mul]

end Hidefix.Proofs
