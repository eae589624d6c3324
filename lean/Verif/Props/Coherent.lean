import Verif.Spec.Returned
import Verif.Props.Common
import Verif.Proofs.ExactRead

/-!
# Property C80: reads are consistent with each other

Nothing is said here about what is right: only that any two reads of common selections (C77) show the same
elements, whichever readers made them.
-/

set_option autoImplicit false

namespace Hidefix.Props
open Hidefix Hidefix.Spec Hidefix.Proofs Outcome

/-- At most one chunk contains a coordinate. -/
theorem chunk_unique {p : Profile} {ds : Dataset} (hwf : WF p ds) {c c' : Chunk} (hc : c ∈ ds.chunks)
    (hc' : c' ∈ ds.chunks) {x : List Nat} (hx : InBox c.offset ds.chunkShape x)
    (hx' : InBox c'.offset ds.chunkShape x) : c' = c := by
  have hoff : ∀ c ∈ ds.chunks, InBox c.offset ds.chunkShape x →
      c.offset = List.zipWith (fun a c => a * c)
        (List.zipWith (fun a c => a / c) x ds.chunkShape) ds.chunkShape := by
    intro c hc hin
    have hm : c.offset ∈ gridOffsets ds.shape ds.chunkShape := by
      rw [← hwf.grid]; exact List.mem_map_of_mem hc
    unfold gridOffsets at hm
    obtain ⟨g, hg, hgo⟩ := List.mem_map.1 hm
    have hgl : g.length = ds.chunkShape.length := by
      rw [inBox_length (mem_rowMajor (by simp [gridDims, hwf.rank]) hg)]
      simp [gridDims, hwf.rank]
    rw [← hgo] at hin ⊢
    rw [offset_of_inBox hwf.pos hgl hin]
  have hnd := gridOffsets_nodup ds.shape ds.chunkShape hwf.rank hwf.pos
  rw [← hwf.grid] at hnd
  exact List.inj_on_of_nodup_map hnd hc' hc (by rw [hoff c' hc' hx', hoff c hc hx])

/-- An intact file stores an array. -/
theorem stores_of_intact {p : Profile} {inflate : List Byte → Option (List Byte)} {file : List Byte}
    {ds : Dataset} (hwf : WF p ds) (h : Intact inflate file ds) : ∃ A, Stores inflate file ds A := by
  classical
  let B : Chunk → List Byte := fun c => if hc : c ∈ ds.chunks then (h c hc).2.choose else []
  have hB : ∀ c ∈ ds.chunks, (B c).length = ds.chunkShape.prod * ds.dsize ∧
      Encoded inflate ds (B c) ((file.drop c.addr).take c.size) := by
    intro c hc
    have e : B c = (h c hc).2.choose := dif_pos hc
    rw [e]
    exact (h c hc).2.choose_spec
  let V : List Nat → List Byte := fun x =>
    if hx : ∃ c ∈ ds.chunks, InBox c.offset ds.chunkShape x then
      ((B hx.choose).drop (linear (List.zipWith (fun a b => a - b) x hx.choose.offset) ds.chunkShape * ds.dsize)).take
        ds.dsize
    else List.replicate ds.dsize 0
  have hV : ∀ c ∈ ds.chunks, ∀ x, InBox c.offset ds.chunkShape x →
      V x = ((B c).drop (linear (List.zipWith (fun a b => a - b) x c.offset) ds.chunkShape * ds.dsize)).take
        ds.dsize := by
    intro c hc x hx
    have hex : ∃ c ∈ ds.chunks, InBox c.offset ds.chunkShape x := ⟨c, hc, hx⟩
    have e : hex.choose = c := chunk_unique hwf hc hex.choose_spec.1 hx hex.choose_spec.2
    show dite _ _ _ = _
    rw [dif_pos hex, e]
  refine ⟨V, fun x => ?_, fun c hc => ⟨(h c hc).1, B c, (hB c hc).1, (hB c hc).2, ?_⟩⟩
  · by_cases hex : ∃ c ∈ ds.chunks, InBox c.offset ds.chunkShape x
    · obtain ⟨c, hc, hx⟩ := hex
      rw [hV c hc x hx, List.length_take, List.length_drop, (hB c hc).1]
      have hlt := linear_lt_of_box hx
      have : (linear (List.zipWith (fun a b => a - b) x c.offset) ds.chunkShape + 1) * ds.dsize ≤
          ds.chunkShape.prod * ds.dsize := Nat.mul_le_mul_right _ hlt
      rw [Nat.add_mul, Nat.one_mul] at this
      omega
    · show (dite _ _ _ : List Byte).length = _
      rw [dif_neg hex, List.length_replicate]
  · rintro x hx - k rfl
    exact (hV c hc x hx).symm

/-- What any reader returns for a common selection are the selected elements. -/
theorem returned_selected {p : Profile} {io : Io} {file : List Byte} {ds : Dataset} {A : List Nat → List Byte}
    {ext : Extents} {start count : List Nat} {bytes : List Byte} (h : Setup p io file ds A ext start count)
    (hc : Common ds.shape ds.chunkShape start count) (hr : Returned p io file ds ext bytes) :
    bytes = selected A start count := by
  have hg := common_good h.wf h.inb hc
  have hW : (2 : Nat) ^ 63 < W := by decide
  have hC : ds.chunkShape.prod * ds.dsize < W := by have := h.sizes.chunk; omega
  have hcp : count.prod * ds.dsize < W :=
    Nat.lt_of_le_of_lt (Nat.mul_le_mul_right _ (count_prod_le h.wf h.inb)) h.sizes.data
  have hreq := C09_size h.wf h.sel h.inb hcp
  have hlen : (selected A start count).length = count.prod * ds.dsize := by
    have hl : start.length = count.length := by rw [h.inb.1, h.inb.2.1]
    unfold selected
    rw [← rowMajor_length _ _ hl]
    generalize rowMajor start count = L
    induction L with
    | nil => simp
    | cons x L ih => rw [List.flatMap_cons, List.length_append, ih, h.stores.elem, List.length_cons, Nat.succ_mul, Nat.add_comm]
  have htake : ∀ d : List Byte, (selected A start count ++ d).take (count.prod * ds.dsize) = selected A start count :=
    fun d => by rw [← hlen, List.take_left]
  obtain ⟨csz, hcb⟩ : ∃ csz, chunkBytes p ds = ok csz := by
    refine ⟨_, chunkBytes_ok h.wf hC⟩
  cases hr with
  | @cache rd hist dst n hrd h1 =>
    by_cases hd : count.prod * ds.dsize ≤ dst.length
    · obtain ⟨a, b⟩ := C01_cache_partial h hg hrd hist hd
      rw [a] at h1
      cases h1
      rw [b, htake]
    · rw [C09_cache hreq (Nat.not_le.1 hd)] at h1
      cases h1
  | @direct sort dst n hsort h1 =>
    by_cases hd : count.prod * ds.dsize ≤ dst.length
    · have e := C01_direct_partial h hg hsort hd
      rw [e] at h1 ⊢
      cases h1
      exact (htake _)
    · rw [C09_direct hcb hreq (Nat.not_le.1 hd)] at h1
      cases h1
  | @par sort dst out n hsort h1 =>
    by_cases hd : count.prod * ds.dsize ≤ dst.length
    · have e := (C01_par_partial h hg hsort hd _).1 h1
      cases e
      exact (htake _)
    · have e := (C09_par hcb hreq (Nat.not_le.1 hd) _).1 h1
      cases e
  | @s3 sort server complete dst n hsort hs hcomp hpos h1 =>
    by_cases hd : count.prod * ds.dsize ≤ dst.length
    · have e := C17_stored_partial h hg hpos hs hsort hcomp hd
      rw [e] at h1 ⊢
      cases h1
      exact (htake _)
    · rw [C09_s3 hcb hreq (Nat.not_le.1 hd)] at h1
      cases h1
  | @stream rt items hrt h1 =>
    obtain ⟨items', e, e'⟩ := C15_partial h hg hrt
    rw [e] at h1
    cases h1
    exact e'

theorem elementAt_flatMap {A : List Nat → List Byte} {s : Nat} (hA : ∀ x, (A x).length = s) (L : List (List Nat))
    {k : Nat} {x : List Nat} (hk : L[k]? = some x) : elementAt (L.flatMap A) s k = A x := by
  induction L generalizing k with
  | nil => simp at hk
  | cons y L ih =>
    rw [List.flatMap_cons]
    cases k with
    | zero =>
      simp only [List.getElem?_cons_zero, Option.some.injEq] at hk
      unfold elementAt
      rw [Nat.zero_mul, List.drop_zero, ← hA y, List.take_left, hk]
    | succ k =>
      rw [← ih (k := k) (by simpa using hk)]
      unfold elementAt
      rw [Nat.succ_mul, Nat.add_comm, ← List.drop_drop]
      congr 2
      rw [← hA y, List.drop_left]

theorem elementAt_selected {A : List Nat → List Byte} {s : Nat} (hA : ∀ x, (A x).length = s)
    {start count x : List Nat} (hx : InBox start count x) :
    elementAt (selected A start count) s (linear (List.zipWith (fun a b => a - b) x start) count) = A x :=
  elementAt_flatMap hA _ (rowMajor_get start count x hx)

/-- C80: any two reads of an intact file, of common selections, by any readers, show the same bytes for
every element that both select. -/
theorem C80_overlap {p : Profile} {io : Io} {file : List Byte} {ds : Dataset} {ext₁ ext₂ : Extents}
    {start₁ count₁ start₂ count₂ : List Nat} {bytes₁ bytes₂ : List Byte}
    (hwf : WF p ds) (had : AddrDet ds) (hio : io.file = some file) (hint : Intact io.inflate file ds)
    (hsz : Sizes file ds)
    (hs₁ : Selects ext₁ ds.shape start₁ count₁) (hb₁ : InBounds start₁ count₁ ds.shape)
    (hc₁ : Common ds.shape ds.chunkShape start₁ count₁)
    (hs₂ : Selects ext₂ ds.shape start₂ count₂) (hb₂ : InBounds start₂ count₂ ds.shape)
    (hc₂ : Common ds.shape ds.chunkShape start₂ count₂)
    (hr₁ : Returned p io file ds ext₁ bytes₁) (hr₂ : Returned p io file ds ext₂ bytes₂)
    {x : List Nat} (hx₁ : InBox start₁ count₁ x) (hx₂ : InBox start₂ count₂ x) :
    elementAt bytes₁ ds.dsize (linear (List.zipWith (fun a b => a - b) x start₁) count₁) =
    elementAt bytes₂ ds.dsize (linear (List.zipWith (fun a b => a - b) x start₂) count₂) := by
  obtain ⟨A, hA⟩ := stores_of_intact hwf hint
  rw [returned_selected ⟨hwf, had, hio, hA, hsz, hs₁, hb₁⟩ hc₁ hr₁,
    returned_selected ⟨hwf, had, hio, hA, hsz, hs₂, hb₂⟩ hc₂ hr₂, elementAt_selected hA.elem hx₁,
    elementAt_selected hA.elem hx₂]

/-- C80, the same selection: any two reads return the same bytes. -/
theorem C80_same {p : Profile} {io : Io} {file : List Byte} {ds : Dataset} {ext₁ ext₂ : Extents}
    {start count : List Nat} {bytes₁ bytes₂ : List Byte}
    (hwf : WF p ds) (had : AddrDet ds) (hio : io.file = some file) (hint : Intact io.inflate file ds)
    (hsz : Sizes file ds) (hs₁ : Selects ext₁ ds.shape start count) (hs₂ : Selects ext₂ ds.shape start count)
    (hb : InBounds start count ds.shape) (hc : Common ds.shape ds.chunkShape start count)
    (hr₁ : Returned p io file ds ext₁ bytes₁) (hr₂ : Returned p io file ds ext₂ bytes₂) : bytes₁ = bytes₂ := by
  obtain ⟨A, hA⟩ := stores_of_intact hwf hint
  rw [returned_selected ⟨hwf, had, hio, hA, hsz, hs₁, hb⟩ hc hr₁,
    returned_selected ⟨hwf, had, hio, hA, hsz, hs₂, hb⟩ hc hr₂]

/-- C80, splitting: a read of `n + m` rows returns what a read of the first `n` and a read of the other `m`
return, one after the other. -/
theorem C80_split {p : Profile} {io : Io} {file : List Byte} {ds : Dataset} {ext ext₁ ext₂ : Extents}
    {i n m : Nat} {is ns : List Nat} {bytes bytes₁ bytes₂ : List Byte}
    (hwf : WF p ds) (had : AddrDet ds) (hio : io.file = some file) (hint : Intact io.inflate file ds)
    (hsz : Sizes file ds) (hb : InBounds (i :: is) ((n + m) :: ns) ds.shape) (hn : 0 < n) (hm : 0 < m)
    (hs : Selects ext ds.shape (i :: is) ((n + m) :: ns))
    (hc : Common ds.shape ds.chunkShape (i :: is) ((n + m) :: ns))
    (hs₁ : Selects ext₁ ds.shape (i :: is) (n :: ns))
    (hc₁ : Common ds.shape ds.chunkShape (i :: is) (n :: ns))
    (hs₂ : Selects ext₂ ds.shape ((i + n) :: is) (m :: ns))
    (hc₂ : Common ds.shape ds.chunkShape ((i + n) :: is) (m :: ns))
    (hr : Returned p io file ds ext bytes) (hr₁ : Returned p io file ds ext₁ bytes₁)
    (hr₂ : Returned p io file ds ext₂ bytes₂) : bytes = bytes₁ ++ bytes₂ := by
  obtain ⟨A, hA⟩ := stores_of_intact hwf hint
  obtain ⟨b1, b2, b3⟩ := hb
  have hb₁ : InBounds (i :: is) (n :: ns) ds.shape ∧ InBounds ((i + n) :: is) (m :: ns) ds.shape := by
    obtain ⟨s, ss, hss⟩ : ∃ s ss, ds.shape = s :: ss := by
      cases hsh : ds.shape with
      | nil => rw [hsh] at b1; cases b1
      | cons s ss => exact ⟨s, ss, rfl⟩
    rw [hss] at b1 b2 b3 ⊢
    simp only [List.zip_cons_cons, List.mem_cons, forall_eq_or_imp] at b3
    refine ⟨⟨b1, by simpa using b2, ?_⟩, ⟨by simpa using b1, by simpa using b2, ?_⟩⟩ <;>
      simp only [List.zip_cons_cons, List.mem_cons, forall_eq_or_imp] <;>
      exact ⟨⟨by omega, by omega⟩, b3.2⟩
  rw [returned_selected ⟨hwf, had, hio, hA, hsz, hs, b1, b2, b3⟩ hc hr,
    returned_selected ⟨hwf, had, hio, hA, hsz, hs₁, hb₁.1⟩ hc₁ hr₁,
    returned_selected ⟨hwf, had, hio, hA, hsz, hs₂, hb₁.2⟩ hc₂ hr₂]
  unfold selected
  rw [rowMajor, rowMajor, rowMajor, ← List.range'_append_1, List.flatMap_append, List.flatMap_append]

/-- C80, element by element: a read returns what reads of its single elements return, one after the other. -/
theorem C80_elements {p : Profile} {io : Io} {file : List Byte} {ds : Dataset} {ext : Extents}
    {start count : List Nat} {bytes : List Byte} {ones : List Nat → Extents} {one : List Nat → List Byte}
    (hwf : WF p ds) (had : AddrDet ds) (hio : io.file = some file) (hint : Intact io.inflate file ds)
    (hsz : Sizes file ds) (hs : Selects ext ds.shape start count) (hb : InBounds start count ds.shape)
    (hc : Common ds.shape ds.chunkShape start count) (hr : Returned p io file ds ext bytes)
    (hones : ∀ x, InBox start count x → Selects (ones x) ds.shape x (x.map fun _ => 1))
    (hone : ∀ x, InBox start count x → Returned p io file ds (ones x) (one x)) :
    bytes = (rowMajor start count).flatMap one := by
  obtain ⟨A, hA⟩ := stores_of_intact hwf hint
  rw [returned_selected ⟨hwf, had, hio, hA, hsz, hs, hb⟩ hc hr]
  unfold selected
  refine List.flatMap_congr fun x hx => ?_
  have hl : start.length = count.length := by rw [hb.1, hb.2.1]
  have hx := mem_rowMajor hl hx
  have hbx : InBounds x (x.map fun _ => 1) ds.shape := by
    have e : ∀ {start count shape x : List Nat}, InBounds start count shape → InBox start count x →
        InBounds x (x.map fun _ => 1) shape := by
      intro start count shape x h hx
      induction x generalizing start count shape with
      | nil =>
        match start, count, hx, h with
        | _ :: _, _, hx, _ => exact absurd hx (by simp [InBox])
        | [], _ :: _, hx, _ => exact absurd hx (by simp [InBox])
        | [], [], _, h =>
          have : shape = [] := List.length_eq_zero_iff.1 h.1.symm
          subst this
          exact ⟨rfl, rfl, by simp⟩
      | cons a x ih =>
        match start, count, shape, hx, h with
        | [], _, _, hx, _ => exact absurd hx (by simp [InBox])
        | _ :: _, [], _, hx, _ => exact absurd hx (by simp [InBox])
        | s :: start, c :: count, [], hx, h => exact absurd h.1 (by simp)
        | s :: start, c :: count, d :: shape, hx, h =>
          obtain ⟨h1, h2, h3⟩ := h
          simp only [InBox] at hx
          simp only [List.zip_cons_cons, List.mem_cons, forall_eq_or_imp] at h3
          obtain ⟨i1, i2, i3⟩ := ih ⟨by simpa using h1, by simpa using h2, h3.2⟩ hx.2
          refine ⟨by simpa using i1, by simpa using i2, ?_⟩
          simp only [List.map_cons, List.zip_cons_cons, List.mem_cons, forall_eq_or_imp]
          exact ⟨⟨by omega, by omega⟩, i3⟩
    exact e hb hx
  rw [returned_selected ⟨hwf, had, hio, hA, hsz, hones x hx, hbx⟩ (.element (by simp)) (hone x hx)]
  unfold selected
  have hone' : ∀ x : List Nat, rowMajor x (x.map fun _ => 1) = [x] := by
    intro x
    induction x with
    | nil => rfl
    | cons a x ih => rw [List.map_cons, rowMajor, ih]; rfl
  rw [hone', List.flatMap_singleton]

/-! ## Examples -/

theorem demo_intact : Intact Demo.inflate Demo.file Demo.ds := fun c hc =>
  ⟨(Demo.stores.chunk c hc).1, (Demo.stores.chunk c hc).2.imp fun _ h => ⟨h.1, h.2.1⟩⟩

theorem demo_common (i n : Nat) : Common Demo.ds.shape Demo.ds.chunkShape [i, 1] [n, 3] :=
  .table (by decide) (not_ragged (s₁ := 4) (c₀ := 2) (c₁ := 2) rfl rfl rfl rfl (.inl (by decide)))

/-- Rows 1 and 2, and all rows, without the first column: element `(2, 2)` is the same in both, whichever
readers read. -/
example {bytes₁ bytes₂ : List Byte} (h₁ : Returned .release Demo.io Demo.file Demo.ds Demo.ext bytes₁)
    (h₂ : Returned .release Demo.io Demo.file Demo.ds (.extent [.slice 0, .slice 1]) bytes₂) :
    elementAt bytes₁ Demo.ds.dsize 4 = elementAt bytes₂ Demo.ds.dsize 7 :=
  C80_overlap (start₁ := [1, 1]) (count₁ := [2, 3]) (start₂ := [0, 1]) (count₂ := [3, 3]) (x := [2, 2])
    (Demo.wf _) Demo.addr rfl demo_intact Demo.sizes (Demo.setup .release).sel (Demo.setup .release).inb
    (demo_common 1 2) (by unfold Selects; exact ⟨rfl, rfl, rfl⟩) (by unfold InBounds; decide)
    (demo_common 0 3) h₁ h₂ (by simp [InBox]) (by simp [InBox])

/-- Something is returned. -/
example : Returned .release Demo.io Demo.file Demo.ds Demo.ext (selected Demo.A [1, 1] [2, 3]) := by
  obtain ⟨items, h, e⟩ := C77_stream (Demo.setup .release) (demo_common 1 2) (rt := .multiThread) (by decide)
  rw [← e]
  exact .stream (by decide) h

/-- All rows are row 0, then rows 1 and 2. -/
example {bytes bytes₁ bytes₂ : List Byte}
    (h : Returned .debug Demo.io Demo.file Demo.ds (.extent [.slice 0, .slice 1]) bytes)
    (h₁ : Returned .debug Demo.io Demo.file Demo.ds (.extent [.sliceEnd 0 1, .slice 1]) bytes₁)
    (h₂ : Returned .debug Demo.io Demo.file Demo.ds Demo.ext bytes₂) : bytes = bytes₁ ++ bytes₂ :=
  C80_split (i := 0) (n := 1) (m := 2) (is := [1]) (ns := [3]) (Demo.wf _) Demo.addr rfl demo_intact Demo.sizes
    (by unfold InBounds; decide) (by decide) (by decide) (by unfold Selects; exact ⟨rfl, rfl, rfl⟩)
    (demo_common 0 3) (by unfold Selects; exact ⟨rfl, rfl, rfl⟩) (demo_common 0 1) (Demo.setup .debug).sel
    (demo_common 1 2) h h₁ h₂

end Hidefix.Props
