import Verif.Props.Tree

/-!
# `Props/Serde`: every theorem applied to a concrete case
-/

set_option autoImplicit false

namespace Hidefix.Props
open Hidefix Hidefix.Spec Hidefix.Proofs Outcome

/-- An index of nested groups, saved and loaded (with more bytes after it), and cut short. -/
example : ∃ bytes, nested.save = ok bytes ∧ Index.load (bytes ++ [1, 2, 3]) = ok nested ∧
    ∀ n < bytes.length, Index.load (bytes.take n) = err .decode := by
  obtain ⟨b, h1, h2⟩ := C32 nested_isIndex.1 nested_isIndex.2
  exact ⟨b, h1, h2 _, fun n hn => C54 nested_isIndex.1 h1 n hn⟩

/-- Three bytes: no index, no hang, nothing undefined. -/
example : Index.load [1, 2, 3] ≠ ub ∧ Index.load [1, 2, 3] ≠ diverge :=
  ⟨(C33_partial [1, 2, 3]).1, (C33_partial [1, 2, 3]).2.1⟩

/-- A file of the bincode format, opened in a build with flexbuffers as well. -/
example {bytes : List Byte} (h : nested.save = ok bytes) :
    readIndex (some fun _ => err .decode) (some Index.load) bytes = ok nested :=
  C51_bincode nested_isIndex.1 h _ fun d hd => ⟨.decode, by cases hd; rfl⟩

/-- The same index again, whatever order flexbuffers gives its maps. -/
example (s : Name) {j : Index} (h : SameIndex nested j) : nested.path = j.path ∧ nested.root.dataset s = j.root.dataset s :=
  ⟨(C32_order nested_isIndex.1 h s).1, (C32_order nested_isIndex.1 h s).2.1⟩

/-- A tree that is no index: `{"path": 3, "root": [true]}`. -/
example : Index.ofTree (.map [(ascii "path", .uint 3), (ascii "root", .seq [.bool true])]) ≠ ub := by
  refine (C33_tree_partial (.map (by simp [FitsU64]) (fun e he => ?_) fun e he => ?_)).1
  · simp only [List.mem_cons, List.not_mem_nil, or_false] at he
    rcases he with rfl | rfl <;> (unfold FitsU64; decide)
  · simp only [List.mem_cons, List.not_mem_nil, or_false] at he
    rcases he with rfl | rfl
    · exact .uint 3
    · exact .seq (by simp [FitsU64]) fun t ht => by
        obtain rfl := List.mem_singleton.1 ht
        exact .bool true

end Hidefix.Props
