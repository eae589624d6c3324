import Verif.Props.Values
import Verif.Props.Demo

/-!
# `Props/Values`: every theorem applied to a concrete case
-/

set_option autoImplicit false

namespace Hidefix.Props
open Hidefix Hidefix.Spec Hidefix.Proofs Outcome

private theorem direct (p : Profile) : ReadsRight (directReadTo p Demo.io Demo.ds sortByAddr) Demo.ext
    ([2, 3].prod * Demo.ds.dsize) (selected Demo.A [1, 1] [2, 3]) := fun dst hd =>
  C01_direct_partial (Demo.setup p) Demo.good sortByAddr_ok hd

example (p : Profile) : ∃ vs : List (List Byte), values p .little .u16 Demo.ds (directReadTo p Demo.io Demo.ds sortByAddr) Demo.ext =
    ok vs.flatten ∧ vs.length = 6 := by
  obtain ⟨vs, h1, h2, -⟩ := values_right (hst := .little) (t := .u16) (Demo.setup p) rfl (.inl (.inl rfl))
    (by decide) (direct p)
  exact ⟨vs, h1, h2⟩

example (p : Profile) : ∃ vs : List (List Byte), values p .big .u16 Demo.ds (directReadTo p Demo.io Demo.ds sortByAddr) Demo.ext =
    ok vs.flatten ∧ vs.length = 6 := by
  obtain ⟨vs, h1, h2, -⟩ := C24_direct_partial (hst := .big) (t := .u16) (Demo.setup p) Demo.good sortByAddr_ok rfl
    (.inl (.inr rfl)) (by decide)
  exact ⟨vs, h1, h2⟩

/-- The cached reader, after the whole dataset has been read. -/
example (p : Profile) (cr : CacheReader) (hcr : CacheReader.withDataset p Demo.ds = ok cr) :
    ∃ vs : List (List Byte), values p .little .u16 Demo.ds (fun e d =>
      (((afterReads p Demo.io Demo.file Demo.ds cr [(.all, List.replicate 24 0)]).readTo p Demo.io Demo.file Demo.ds e d).1,
       ((afterReads p Demo.io Demo.file Demo.ds cr [(.all, List.replicate 24 0)]).readTo p Demo.io Demo.file Demo.ds e d).2.1))
      Demo.ext = ok vs.flatten ∧ vs.length = 6 := by
  obtain ⟨vs, h1, h2, -⟩ := C24_cache_partial (hst := .little) (t := .u16) (Demo.setup p) Demo.good hcr
    [(.all, List.replicate 24 0)] rfl (.inl (.inl rfl)) (by decide)
  exact ⟨vs, h1, h2⟩

/-- Into a buffer of eight values: six are written, on a big-endian host too. -/
example (p : Profile) : ∃ vs rest : List (List Byte), valuesTo .big .u16 Demo.ds.order (directReadTo p Demo.io Demo.ds sortByAddr)
      Demo.ext (List.replicate 8 [1, 2]).flatten = (ok 12, vs.flatten ++ rest.flatten) ∧ vs.length = 6 := by
  obtain ⟨vs, rest, h1, h2, -⟩ := C25_partial (hst := .big) (t := .u16) (Demo.setup p) rfl (.inl (.inr rfl))
    (direct p) (List.replicate 8 [1, 2]) (by decide) (by decide)
  exact ⟨vs, rest, h1, h2⟩

/-! ## More bytes than a `Vec` holds: `2 ^ 63` zeros, compressed into two bytes -/

def zeros : Dataset :=
  { dtype := .uint 1, dsize := 1, order := .LE,
    chunks := [⟨0, 1, [0]⟩, ⟨1, 1, [4611686018427387904]⟩],
    shape := [9223372036854775808], chunkShape := [4611686018427387904],
    chunkShapeReduced := [4611686018427387904], scaledDimSz := [1], dimSz := [1], chunkDimSz := [1],
    shuffle := false, gzip := some 9 }

def zerosIo : Io := ⟨some [7, 7], fun _ => some (List.replicate 4611686018427387904 0)⟩

theorem zeros_setup (p : Profile) : Setup p zerosIo [7, 7] zeros (fun _ => [0]) .all [0] [9223372036854775808] where
  wf := { rank := rfl, built := by cases p <;> rfl, grid := by decide +kernel, pos := by decide,
          fits := ⟨by decide, by decide, by decide, by decide⟩ }
  addr := by unfold AddrDet; decide
  opened := rfl
  stores :=
    { elem := fun _ => rfl
      chunk := fun c hc => by
        refine ⟨by revert c; decide, List.replicate 4611686018427387904 0, List.length_replicate, rfl, ?_⟩
        intro x hx _ k hk
        have hs : zeros.chunkShape = [4611686018427387904] := rfl
        have ho : ∃ o, c.offset = [o] := by
          simp only [zeros, List.mem_cons, List.not_mem_nil, or_false] at hc
          rcases hc with rfl | rfl <;> exact ⟨_, rfl⟩
        obtain ⟨o, ho⟩ := ho
        rw [ho, hs] at hx hk
        match x, hx with
        | [a], hx =>
          simp only [InBox, and_true] at hx
          simp only [List.zipWith, linear, List.prod_nil, mul_one, add_zero] at hk
          subst hk
          have hd : zeros.dsize = 1 := rfl
          rw [hd, mul_one, List.drop_replicate, List.take_replicate, Nat.min_eq_left (by omega)]
          rfl }
  sizes := ⟨⟨by decide, by decide, by decide⟩, by decide, by decide, by decide⟩
  sel := ⟨rfl, rfl⟩
  inb := by unfold InBounds; decide

example (p : Profile) (rd : ByteReader) : values p .little .u8 zeros rd .all = panic .capacity :=
  (C24_too_large (t := .u8) (zeros_setup p) rfl (by decide) (by decide)).1

/-- The parallel reader, with any schedule. -/
example (p : Profile) (rd : ByteReader)
    (hrd : ∀ dst, DirectReadToPar p Demo.io Demo.ds sortByAddr Demo.ext dst (rd Demo.ext dst)) :
    ∃ vs : List (List Byte), values p .little .u16 Demo.ds rd Demo.ext = ok vs.flatten ∧ vs.length = 6 := by
  obtain ⟨vs, h1, h2, -⟩ := C24_par_partial (hst := .little) (t := .u16) (Demo.setup p) Demo.good sortByAddr_ok hrd rfl
    (.inl (.inl rfl)) (by decide)
  exact ⟨vs, h1, h2⟩

end Hidefix.Props
