import Verif.Props.Reading

/-!
# `Props/Reading`: every theorem applied to a concrete case
-/

set_option autoImplicit false

namespace Hidefix.Props
open Hidefix Hidefix.Spec Hidefix.Proofs Outcome

example (p : Profile) {rd : CacheReader} : rd.readTo p Demo.io Demo.file Demo.ds Demo.ext (List.replicate 11 7) =
    (err .capacity, List.replicate 11 7, rd) :=
  C09_cache (n := 12) (by cases p <;> rfl) (by decide)

example (p : Profile) (server : Server) : s3ReadTo p Demo.inflate Demo.ds sortByAddr server id Demo.ext
    (List.replicate 11 7) = (err .capacity, List.replicate 11 7) :=
  C09_s3 (csz := 8) (n := 12) (by cases p <;> rfl) (by cases p <;> rfl) (by decide)

example (p : Profile) : reqBytes p Demo.ds Demo.ext = ok 12 :=
  C09_size (Demo.wf p) (Demo.setup p).sel (Demo.setup p).inb (by decide)

/-- A cached reader, whatever the file holds. -/
example (p : Profile) (io : Io) (file : List Byte) {rd : CacheReader} (hrd : CacheReader.withDataset p Demo.ds = ok rd)
    (hist : List (Extents × List Byte)) :
    ∃ bytes, FromChunks (fun c => readChunk p io file c.addr c.size rd.chunkSz 2 true true) Demo.ds bytes ∧
      ∀ dst n, ((afterReads p io file Demo.ds rd hist).readTo p io file Demo.ds Demo.ext dst).1 = ok n →
        bytes.length = n ∧ n = 12 := by
  obtain ⟨b, h1, h2⟩ := C07_cache_partial (io := io) (file := file) (Demo_checked p) Demo.addr hrd hist (Demo.setup p).sel
    (Demo.setup p).inb
  exact ⟨b, h1, fun dst n hn => ⟨(h2 dst n hn).1, (h2 dst n hn).2.1⟩⟩

/-- The last two bytes of a destination that is too long by two. -/
example (p : Profile) (io : Io) (file : List Byte) {rd : CacheReader} (hrd : CacheReader.withDataset p Demo.ds = ok rd) :
    ((afterReads p io file Demo.ds rd []).readTo p io file Demo.ds Demo.ext (List.replicate 14 7)).2.1[13]? = some 7 :=
  (C08_cache_partial (n := 12) (Demo_checked p) Demo.addr hrd [] (List.replicate 14 7) (by cases p <;> rfl)).2 13
    (by decide)

example (p : Profile) (io : Io) {res : Outcome Nat × List Byte}
    (h : DirectReadToPar p io Demo.ds sortByAddr Demo.ext (List.replicate 14 7) res) : res.2[13]? = some 7 :=
  (C08_par_partial (n := 12) (Demo_checked p) sortByAddr_ok (List.replicate 14 7) (by cases p <;> rfl) res h).2 13
    (by decide)

/-- The threads of a parallel read write at different places. -/
example (p : Profile) (io : Io) {csz n : Nat} {groups : List (List GItem)}
    (h : parPrelude p Demo.ds sortByAddr Demo.ext 12 = ok (csz, n, groups)) : n ≤ 12 ∧
    ∀ i j : Nat, i ≠ j → ∀ gi gj, groups[i]? = some gi → groups[j]? = some gj →
      ∀ a ∈ (parGroup p io Demo.ds csz 12 gi).2, ∀ b ∈ (parGroup p io Demo.ds csz 12 gj).2, ¬ a.overlaps b :=
  have := C14_ranges_partial (io := io) (Demo_checked p) sortByAddr_ok h
  ⟨this.1, this.2.2⟩

end Hidefix.Props
