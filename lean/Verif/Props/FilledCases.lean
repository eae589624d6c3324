import Verif.Props.Filled

/-!
# `Props/Filled`: every theorem applied to a concrete case
-/

set_option autoImplicit false

namespace Hidefix.Props
open Hidefix Hidefix.Spec Hidefix.Proofs Outcome

/-- A release build, selecting three incomplete rows of `fits342`: what a direct read gives is all from the chunks. -/
example (sort : List GItem → List GItem) (hsort : ∀ l, SortedByAddr l (sort l)) (io : Io) (file : List Byte)
    (hf : io.file = some file) {csz : Nat} (hc : chunkBytes .release fits342 = ok csz) :
    Fills (fun c => readChunk .release io file c.addr c.size csz 1 false false) fits342 18 fun dst res =>
      res = directReadTo .release io fits342 sort (.extent [.slice 0, .sliceCount 0 3, .slice 0]) dst ∨
      DirectReadToPar .release io fits342 sort (.extent [.slice 0, .sliceCount 0 3, .slice 0]) dst res :=
  C92_direct (fits342_tried .release) hf hc hsort (by unfold AddrDet; decide)

example (sort : List GItem → List GItem) (hsort : ∀ l, SortedByAddr l (sort l)) (io : Io) (file : List Byte)
    (hf : io.file = some file) {csz : Nat} (hc : chunkBytes .release fits342 = ok csz) :
    (∃ bytes : List Byte, bytes.length = 18 ∧ ∀ (rd : ByteReader), (∀ dst, rd (.extent [.slice 0, .sliceCount 0 3, .slice 0]) dst =
        directReadTo .release io fits342 sort (.extent [.slice 0, .sliceCount 0 3, .slice 0]) dst) →
      values .release .little .u8 fits342 rd (.extent [.slice 0, .sliceCount 0 3, .slice 0]) =
        ok (toNativeSlice .little .u8 fits342.order bytes)) ∨
    ∀ out, values .release .little .u8 fits342 (directReadTo .release io fits342 sort)
      (.extent [.slice 0, .sliceCount 0 3, .slice 0]) ≠ ok out := by
  rcases C92_values (hst := .little) (t := .u8) (fits342_tried .release) hf hc hsort (by unfold AddrDet; decide) rfl with
    ⟨b, -, h1, h2⟩ | h
  · exact .inl ⟨b, h1, fun rd hrd => (h2 rd (fun _ => 0) fun dst => .inl (hrd dst)).1⟩
  · exact .inr fun out => (h _ (fun _ => 0) (fun _ => .inl rfl) out ([], [])).1

/-- `v[:, 0:3]` in Python. -/
example (sort : List GItem → List GItem) (hsort : ∀ l, SortedByAddr l (sort l)) (io : Io) (file : List Byte)
    (hf : io.file = some file) {csz : Nat} (hc : chunkBytes .release fits342 = ok csz) {rd : ByteReader}
    (hrd : ∀ ext dst, DirectReadToPar .release io fits342 sort ext dst (rd ext dst)) (junk : Nat → Byte)
    {out : Prim × List Nat × List Byte}
    (h : pyGetItem .release .little fits342 rd junk [.slice none none none, .slice none (some 3) none] = ok out) :
    out.1 = .u8 ∧ out.2.1 = [3, 3, 2] := by
  rcases C92_python (p := .release) (hst := .little) (t := .u8) (items := [.slice none none none, .slice none (some 3) none])
    (ext := .extent [.sliceCount 0 3, .sliceCount 0 3, .sliceCount 0 2]) (start := [0, 0, 0]) (count := [3, 3, 2]) rfl rfl
    { fits342_tried .release with sel := ⟨rfl, rfl, rfl⟩ } rfl hf hc hsort (by unfold AddrDet; decide) with
    ⟨b, -, h1, h2⟩ | h'
  · rw [h2 rd junk fun dst => hrd _ dst] at h
    cases h
    exact ⟨rfl, rfl⟩
  · exact absurd h (h' rd junk (fun dst => hrd _ dst) out)

end Hidefix.Props
