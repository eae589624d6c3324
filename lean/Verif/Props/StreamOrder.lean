import Verif.Props.ExactStreams
import Verif.Props.Coherent

/-!
# Property C86: the byte order of a stream
-/

set_option autoImplicit false

namespace Hidefix.Props
open Hidefix Hidefix.Spec Hidefix.Proofs Outcome

/-- A number stored in byte order `o`, with its most significant byte first. -/
def bigEndian (o : ByteOrder) (b : List Byte) : List Byte := if o = .LE then b.reverse else b

/-- A file that a stored element does not read the same from both ends of. -/
theorem lopsided_setup {p : Profile} {ds : Dataset} {N : Nat} (hP : PlainStore ds N) (hwf : WF p ds)
    (inflate : List Byte → Option (List Byte)) {ext : Extents} {start count : List Nat}
    (hsel : Selects ext ds.shape start count) (hb : InBounds start count ds.shape) (h2 : 2 ≤ ds.dsize) :
    ∃ file A, Setup p ⟨some file, inflate⟩ file ds A ext start count ∧ start ∈ rowMajor start count ∧
      A start ≠ (A start).reverse := by
  have hl : start.length = count.length := by rw [hb.1, hb.2.1]
  have hmem : start ∈ rowMajor start count := by
    rw [rowMajor_mem_iff hl]
    have h3 := hb.2.2
    have h1 := hb.1
    have h2 := hb.2.1
    clear * - h1 h2 h3
    generalize ds.shape = ss at *
    induction ss generalizing start count with
    | nil =>
      simp only [List.length_nil, List.length_eq_zero_iff] at h1 h2
      subst h1 h2; simp [InBox]
    | cons s ss ih =>
      match start, count, h1, h2 with
      | i :: is, n :: ns, h1, h2 =>
        simp only [List.zip_cons_cons, List.mem_cons, forall_eq_or_imp] at h3
        exact ⟨⟨Nat.le_refl _, by omega⟩, ih h3.2 (by simpa using h1) (by simpa using h2)⟩
  have hx : InBox (ds.shape.map fun _ => 0) ds.shape start := by
    have h3 := hb.2.2
    have h1 := hb.1
    have h2 := hb.2.1
    clear * - h1 h2 h3
    generalize ds.shape = ss at *
    induction ss generalizing start count with
    | nil =>
      simp only [List.length_nil, List.length_eq_zero_iff] at h1 h2
      subst h1 h2; simp [InBox]
    | cons s ss ih =>
      match start, count, h1, h2 with
      | i :: is, n :: ns, h1, h2 =>
        simp only [List.zip_cons_cons, List.mem_cons, forall_eq_or_imp] at h3
        exact ⟨⟨Nat.zero_le _, by simp only; omega⟩, ih h3.2 (by simpa using h1) (by simpa using h2)⟩
  obtain ⟨c, -, hc, hin, -⟩ := C04 hwf hx
  have hk := linear_lt_of_box hin
  generalize hkk : linear (List.zipWith (fun a b => a - b) start c.offset) ds.chunkShape = k at hk
  have hsz := hP.size c hc
  have hN := hP.inside c hc
  have hkd : k * ds.dsize + ds.dsize ≤ c.size := by
    have := Nat.mul_le_mul_right ds.dsize (Nat.succ_le_of_lt hk)
    rw [Nat.succ_mul] at this
    omega
  have henc : ∀ block raw, Encoded inflate ds block raw ↔ raw = block := by
    intro block raw
    unfold Encoded
    rw [hP.filters.1, hP.filters.2]
    simp
  have hint : Intact inflate (marked N (c.addr + k * ds.dsize) 1) ds := by
    intro c' hc'
    have := hP.inside c' hc'
    have hs := hP.size c' hc'
    rw [marked_length]
    exact ⟨this, _, by rw [List.length_take, List.length_drop, marked_length]; omega, (henc _ _).2 rfl⟩
  obtain ⟨A, hA⟩ := stores_of_intact hwf hint
  refine ⟨_, A, ⟨hwf, fun c hc c' hc' _ => by rw [hP.size c hc, hP.size c' hc'], rfl, hA,
    ⟨⟨hP.elem.1, hP.elem.2, fun h => by rw [hP.filters.2] at h; cases h⟩, hP.chunk,
      by rw [marked_length]; exact hP.file, hP.data⟩, hsel, hb⟩, hmem, ?_⟩
  obtain ⟨-, block, -, he, hbl⟩ := hA.chunk c hc
  have hAx := hbl start hin hx k hkk.symm
  rw [henc] at he
  intro hrev
  have g1 : (A start)[0]? = some 1 := by
    rw [← hAx, ← he, List.getElem?_take, if_pos (by omega), List.getElem?_drop, List.getElem?_take,
      if_pos (by omega), List.getElem?_drop, marked_get (by omega), if_pos (by omega)]
  have g2 : (A start)[ds.dsize - 1]? = some 0 := by
    rw [← hAx, ← he, List.getElem?_take, if_pos (by omega), List.getElem?_drop, List.getElem?_take,
      if_pos (by omega), List.getElem?_drop, marked_get (by omega), if_neg (by omega)]
  rw [hrev, List.getElem?_reverse (by rw [hA.elem]; omega), hA.elem, Nat.sub_zero, g2] at g1
  revert g1
  decide

/-- C86 for datasets in big-endian order, of unknown order or of single bytes: the stream is in big-endian
order. Missing: numbers of several bytes in little-endian order (`not_C86`). -/
theorem C86_partial {p : Profile} {rt : Rt} {io : Io} {file : List Byte} {ds : Dataset}
    {A : List Nat → List Byte} {ext : Extents} {start count : List Nat}
    (h : Setup p io file ds A ext start count) (hg : Good p ds start count) (hrt : rt ≠ .currentThread)
    (ho : ds.order ≠ .LE ∨ ds.dsize = 1) :
    ∃ items, streamBytes p rt io ds ext = ok ⟨items, ok ()⟩ ∧
      items.flatten = (rowMajor start count).flatMap fun x => bigEndian ds.order (A x) := by
  obtain ⟨items, h1, h2⟩ := C15_partial h hg hrt
  refine ⟨items, h1, h2.trans ?_⟩
  unfold selected
  congr 1
  funext x
  unfold bigEndian
  split
  · rename_i hle
    rcases ho with ho | ho
    · exact absurd hle ho
    · have := h.stores.elem x
      rw [ho] at this
      obtain ⟨b, hb⟩ := List.length_eq_one_iff.1 this
      rw [hb]; rfl
  · rfl

/-- C86, exactly: the stream of a plainly stored dataset is in big-endian order, whatever the file stores, if
and only if the dataset is, or is of single bytes (or its order is not known). -/
theorem C86_exact {p : Profile} {rt : Rt} {ds : Dataset} {N : Nat} {inflate : List Byte → Option (List Byte)}
    {ext : Extents} {start count : List Nat} (hP : PlainStore ds N) (hwf : WF p ds)
    (hsel : Selects ext ds.shape start count) (hb : InBounds start count ds.shape)
    (hg : Good p ds start count) (hrt : rt ≠ .currentThread) :
    (∀ file A, Setup p ⟨some file, inflate⟩ file ds A ext start count →
      ∃ items, streamBytes p rt ⟨some file, inflate⟩ ds ext = ok ⟨items, ok ()⟩ ∧
        items.flatten = (rowMajor start count).flatMap fun x => bigEndian ds.order (A x)) ↔
    (ds.order ≠ .LE ∨ ds.dsize = 1) := by
  constructor
  · intro h
    by_contra hno
    push Not at hno
    obtain ⟨hle, h1⟩ := hno
    have hpos := hP.elem.1
    obtain ⟨file, A, hset, hmem, hne⟩ := lopsided_setup hP hwf inflate hsel hb (by omega)
    obtain ⟨items, a1, a2⟩ := h file A hset
    obtain ⟨items', b1, b2⟩ := C15_partial hset hg hrt
    rw [a1] at b1
    obtain rfl := congrArg Trace.items (Outcome.ok.inj b1)
    rw [b2] at a2
    unfold selected at a2
    have hf := flatMap_split hpos (fun x _ => hset.stores.elem x)
      (fun x _ => by unfold bigEndian; split <;> simp [hset.stores.elem x]) a2
    rw [List.forall₂_same] at hf
    have := hf start hmem
    unfold bigEndian at this
    rw [if_pos hle] at this
    exact hne this
  · intro ho file A hset
    exact C86_partial hset hg hrt ho

/-- A contiguous 2×4×2 dataset of 16-bit numbers in little-endian order. -/
def little242 : Dataset :=
  { dtype := .uint 2, dsize := 2, order := .LE, chunks := [⟨100, 32, [0, 0, 0]⟩], shape := [2, 4, 2],
    chunkShape := [2, 4, 2], chunkShapeReduced := [2, 4, 2], scaledDimSz := [1, 1, 1],
    dimSz := [8, 2, 1], chunkDimSz := [8, 2, 1], shuffle := false, gzip := none }

/-- The documentation of `stream`, "A stream of bytes from the variable. Always in Big Endian.", is false: for
some file, the stream of all of `little242` is not in big-endian order. -/
theorem not_C86 (p : Profile) (inflate : List Byte → Option (List Byte)) :
    ¬ ∀ file A, Setup p ⟨some file, inflate⟩ file little242 A .all [0, 0, 0] [2, 4, 2] →
      ∃ items, streamBytes p .none ⟨some file, inflate⟩ little242 .all = ok ⟨items, ok ()⟩ ∧
        items.flatten = (rowMajor [0, 0, 0] [2, 4, 2]).flatMap fun x => bigEndian little242.order (A x) := by
  have hP : PlainStore little242 132 :=
    ⟨⟨rfl, rfl⟩, by decide, by decide, by decide, by decide, by decide, by decide, by decide⟩
  have hwf : WF p little242 :=
    ⟨rfl, by cases p <;> rfl, by decide, by decide, ⟨by decide, by decide, by decide, by decide⟩⟩
  intro h
  have := (C86_exact (inflate := inflate) (ext := .all) (start := [0, 0, 0]) (count := [2, 4, 2]) hP hwf
    ⟨rfl, rfl⟩ (by unfold InBounds; decide) (by unfold Good; cases p <;> decide) (by decide)).1 h
  revert this
  decide

end Hidefix.Props
