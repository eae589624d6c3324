import Verif.Props.Open

/-!
# `Props/Open`: every theorem applied to a concrete case
-/

set_option autoImplicit false

namespace Hidefix.Props
open Hidefix Hidefix.Spec Hidefix.Proofs Outcome

/-- No such variable; no file; both there. -/
example (p : Profile) (fs : Fs) :
    (GroupIndex.mk (some [102]) [([120], Demo.ds)] []).reader p fs [121] = err .missing ∧
    (GroupIndex.mk (some [102]) [([120], Demo.ds)] []).reader p (fun _ => none) [120] = err .io :=
  ⟨(C56.2.1 rfl).1, C56.2.2.1 [102] Demo.ds rfl rfl rfl⟩

example (p : Profile) : (∃ rd, (GroupIndex.mk (some [102]) [([120], Demo.ds)] []).reader p (fun _ => some Demo.file) [120] =
      ok ⟨Demo.ds, Demo.file, rd⟩) ∧
    (GroupIndex.mk (some [102]) [([120], Demo.ds)] []).streamer p [120] = ok ⟨Demo.ds, [102]⟩ :=
  have h := C56_opens (p := p) (fs := fun _ => some Demo.file) (g := .mk (some [102]) [([120], Demo.ds)] [])
    (s := [120]) (path := [102]) (ds := Demo.ds) rfl rfl (by decide) (by decide)
  ⟨h.1 _ rfl, h.2⟩

/-- `/a/b/x` of the demo file, as numbers. -/
example {p : Profile} {idx : Index} (hi : Index.indexFile p (some [47, 102]) demoRoot = ok idx) :
    ∃ r, idx.root.reader p (fun _ => some Demo.file) [47, 97, 47, 98, 47, 120] = ok r ∧
      ∃ vs : List (List Byte), values p .little .u16 r.ds (fun e dst =>
          ((r.readTo p Demo.inflate e dst).1, (r.readTo p Demo.inflate e dst).2.1)) Demo.ext = ok vs.flatten ∧
        vs.length = 6 ∧ List.Forall₂ (fun x v => v.length = 2 ∧ SameNumber .little .littleEndian (Demo.A x) v)
          (rowMajor [1, 1] [2, 3]) vs := by
  obtain ⟨r, h1, h2⟩ := C57_values_partial (hst := .little) (T := .u16) (fs := fun _ => some Demo.file) (file := Demo.file)
    (names := [[97], [98]]) (d := [120]) rfl demoRoot_wellNamed hi demoRoot_has.1 demoRoot_has.2
    (by simp only [Plain]; decide) demoH5_readable (Demo.setup p).sel (Demo.setup p).inb Demo.good rfl (.inl rfl)
    (by decide) 1
  exact ⟨r, h1, h2 []⟩

end Hidefix.Props
