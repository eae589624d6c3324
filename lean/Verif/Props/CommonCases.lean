import Verif.Props.Coherent

/-!
# `Props/Common`: every theorem applied to a concrete case
-/

set_option autoImplicit false

namespace Hidefix.Props
open Hidefix Hidefix.Spec Hidefix.Proofs Outcome

private theorem table12 : Common Demo.ds.shape Demo.ds.chunkShape [1, 1] [2, 3] := demo_common 1 2

example (p : Profile) : Good p Demo.ds [1, 1] [2, 3] :=
  common_good (Demo.wf p) (Demo.setup p).inb table12

example (p : Profile) (hst : Host) : ∃ items, streamXdr p .multiThread hst Demo.io Demo.ds Demo.ext = ok ⟨items, ok ()⟩ ∧
    items.flatten = (rowMajor [1, 1] [2, 3]).flatMap fun x => xdrElem (.uint 2) .LE (Demo.A x) :=
  C77_xdr (Demo.setup p) table12 (by decide) (by simp [XdrType, Demo.ds]) (.inl (by decide)) (by decide)

example (p : Profile) (cr : CacheReader) (hcr : CacheReader.withDataset p Demo.ds = ok cr) (rd : ByteReader)
    (hrd : ∀ dst, DirectReadToPar p Demo.io Demo.ds sortByAddr Demo.ext dst (rd Demo.ext dst)) (junk : Nat → Byte) :
    ∃ vs, valuesDynPar p .little .u16 Demo.ds rd Demo.ext junk = ok ([2, 3], vs.flatten) ∧ vs.length = 6 ∧
      SameValues .little .LE ((rowMajor [1, 1] [2, 3]).map Demo.A) vs := by
  obtain ⟨-, -, ⟨vs, -, h1, h2⟩, -⟩ := C77_values (hst := .little) (t := .u16) (rt := .none) (Demo.setup p) table12 hcr []
    sortByAddr_ok hrd (by decide) rfl (.inl (.inl rfl)) (by decide)
  exact ⟨vs, h2 junk, h1.1, h1.2⟩

/-- `ds[1:3, 1:]` from Python. -/
example (p : Profile) (rd : ByteReader)
    (hrd : ∀ ext dst, DirectReadToPar p Demo.io Demo.ds sortByAddr ext dst (rd ext dst)) :
    ∃ vs, (∀ junk, pyGetItem p .little Demo.ds rd junk [.slice (some 1) (some 3) none, .slice (some 1) none none] =
        ok (.u16, [2, 3], vs.flatten)) ∧
      SameValues .little .LE ((combine [[1, 2], [1, 2, 3]]).map Demo.A) vs :=
  C77_python (ls := [[1, 2], [1, 2, 3]]) (Demo.wf p) Demo.addr rfl (Demo.setup p).stores Demo.sizes rfl
    (.inl (.inl rfl)) sortByAddr_ok hrd (by decide) (by decide) (by decide) (by decide) (Demo.setup p).inb table12
    (by decide)

/-- `/a/b/x` of the demo file, from the saved index. -/
example {p : Profile} {idx : Index} (hi : Index.indexFile p (some [47, 102]) demoRoot = ok idx) :
    ∃ bytes idx', idx.save = ok bytes ∧ Index.load bytes = ok idx' ∧
      ∃ r, idx'.root.reader p (fun _ => some Demo.file) [47, 97, 47, 98, 47, 120] = ok r ∧
        (r.readTo p Demo.inflate Demo.ext (List.replicate 12 0)).2.1 = selected Demo.A [1, 1] [2, 3] := by
  obtain ⟨bytes, idx', h1, h2, h3⟩ := C77_file (fs := fun _ => some Demo.file) (file := Demo.file)
    (names := [[97], [98]]) (d := [120]) ⟨by simp [FitsU64], utf8_iff.1 (by decide)⟩ rfl demoRoot_isH5
    demoRoot_wellNamed hi demoRoot_has.1 demoRoot_has.2 (by simp only [Plain]; decide) demoH5_readable
    (Demo.setup p).sel (Demo.setup p).inb table12
  obtain ⟨⟨r, h4, h5⟩, -⟩ := h3 1
  exact ⟨bytes, idx', h1, h2, r, h4, (h5 [] (List.replicate 12 0) (by decide)).2⟩

end Hidefix.Props
