import Verif.Props.FillValue

/-!
# `Props/FillValue`: every theorem applied to a concrete case
-/

set_option autoImplicit false

namespace Hidefix.Props
open Hidefix Hidefix.Spec Hidefix.Proofs Outcome

/-- −1 becomes −32768, whatever the threads do; 256 stays. -/
example {narrow : List Byte → List Byte} {sched : List Nat} (hs : sched.Perm (List.range 2)) :
    ∃ ws, pyApplyFill narrow .little sched .i16 ⟨some (-1), none⟩ ⟨some (-32768), none⟩ [255, 255, 0, 1] = ok ws.flatten ∧
      List.Forall₂ (fun v w : List Byte => w.length = 2 ∧
        (intVal true .LE v = -1 → intVal true .LE w = -32768) ∧ (intVal true .LE v ≠ -1 → w = v))
        [[255, 255], [0, 1]] ws :=
  (C68_ints (t := .i16) rfl ⟨some (-1), none⟩ ⟨some (-32768), none⟩ [[255, 255], [0, 1]] (by decide) hs).1 (-1) (-32768)
    ⟨rfl, by decide⟩ ⟨rfl, by decide⟩

/-- 65535 does not fit an `i16`. -/
example {narrow : List Byte → List Byte} {sched : List Nat} (hs : sched.Perm (List.range 2)) :
    pyApplyFill narrow .little sched .i16 ⟨some 65535, none⟩ ⟨some 0, none⟩ [255, 255, 0, 1] = panic .unwrap :=
  (C68_ints (t := .i16) rfl ⟨some 65535, none⟩ ⟨some 0, none⟩ [[255, 255], [0, 1]] (by decide) hs).2 fun ⟨c, f, hc, _⟩ => by
    obtain ⟨h1, h2⟩ := hc
    cases h1
    revert h2
    decide

example {narrow : List Byte → List Byte} {sched : List Nat} (hs : sched.Perm (List.range 1)) :
    ∃ ws, pyApplyFill narrow .big sched .f64 ⟨some 0, some [0, 0, 0, 0, 0, 0, 0, 0]⟩
      ⟨none, some [0x7f, 0xf8, 0, 0, 0, 0, 0, 0]⟩ [0x80, 0, 0, 0, 0, 0, 0, 0] = ok ws.flatten ∧
      List.Forall₂ (fun v w : List Byte => w.length = 8 ∧ msFirst .BE w =
        if FloatEq (msFirst .BE v) [0, 0, 0, 0, 0, 0, 0, 0] then [0x7f, 0xf8, 0, 0, 0, 0, 0, 0] else msFirst .BE v)
        [[0x80, 0, 0, 0, 0, 0, 0, 0]] ws :=
  C68_floats (t := .f64) rfl ⟨_, rfl, rfl, rfl⟩ ⟨_, rfl, rfl, rfl⟩ rfl rfl [[0x80, 0, 0, 0, 0, 0, 0, 0]] (by decide) hs

/-- A fill value that is no number (`None`). -/
example {narrow : List Byte → List Byte} (bytes : List Byte) (sched : List Nat) :
    pyApplyFill narrow .little sched .f32 ⟨none, some [0, 0, 0, 0, 0, 0, 0, 0]⟩ ⟨none, none⟩ bytes = panic .unwrap :=
  C68_floats_refused rfl (.inr rfl) bytes sched

end Hidefix.Props
