import Verif.Spec.Plain
import Verif.Proofs.ExactSlices
import Verif.Proofs.Reads

/-!
# Reads that are right for every content of the file are reads of good selections
-/

set_option autoImplicit false

namespace Hidefix.Proofs
open Hidefix Hidefix.Spec Outcome

/-- `N` bytes, 1 in `[a, a + n)` and 0 elsewhere. -/
def marked (N a n : Nat) : List Byte :=
  (List.range N).map fun i => if a ≤ i ∧ i < a + n then 1 else 0

theorem marked_length (N a n : Nat) : (marked N a n).length = N := by simp [marked]

theorem marked_get {N a n i : Nat} (h : i < N) :
    (marked N a n)[i]? = some (if a ≤ i ∧ i < a + n then 1 else 0) := by
  simp [marked, h]

/-- The array that is 1 (in every byte) at the element stored at `(c, k)`, and 0 elsewhere. -/
noncomputable def markA (ds : Dataset) (c : Chunk) (k : Nat) (x : List Nat) : List Byte :=
  open Classical in List.replicate ds.dsize (if StoredAt ds x c k then 1 else 0)

theorem markA_bytes (ds : Dataset) (c : Chunk) (k : Nat) (x : List Nat) :
    ∀ b ∈ markA ds c k x, b = 0 ∨ b = 1 := by
  intro b hb
  unfold markA at hb
  rw [List.mem_replicate] at hb
  rw [hb.2]
  split
  · exact .inr rfl
  · exact .inl rfl

theorem piece_const {l : List Byte} {a n : Nat} {b : Byte} (h : ∀ i, i < n → l[a + i]? = some b) :
    (l.drop a).take n = List.replicate n b := by
  apply List.ext_getElem?
  intro i
  rw [List.getElem?_take, List.getElem?_replicate]
  split
  · rename_i hi
    rw [List.getElem?_drop, h i hi]
  · rfl

theorem linear_lt_of_box : ∀ {o cs x : List Nat}, InBox o cs x →
    linear (List.zipWith (fun a b => a - b) x o) cs < cs.prod
  | [], [], [], _ => by simp [linear]
  | a :: o, c :: cs, y :: x, h => by
    simp only [InBox] at h
    have ih := linear_lt_of_box h.2
    simp only [List.zipWith_cons_cons, linear, List.prod_cons]
    have : (y - a + 1) * cs.prod ≤ c * cs.prod := Nat.mul_le_mul_right _ (by omega)
    rw [Nat.add_mul, Nat.one_mul] at this
    omega
  | [], [], _ :: _, h => by simp [InBox] at h
  | [], _ :: _, _, h => by simp [InBox] at h
  | _ :: _, [], _, h => by simp [InBox] at h
  | _ :: _, _ :: _, [], h => by simp [InBox] at h

theorem rawD_plain {p : Profile} {io : Io} {file : List Byte} {ds : Dataset}
    {A : List Nat → List Byte} {ext : Extents} {start count : List Nat}
    (hset : Setup p io file ds A ext start count) (hf : ds.gzip = none ∧ ds.shuffle = false)
    {c : Chunk} (hc : c ∈ ds.chunks) :
    rawD p io file ds (ds.chunkShape.prod * ds.dsize) c = ok ((file.drop c.addr).take c.size) := by
  obtain ⟨h1, block, h2, h3, -⟩ := hset.stores.chunk c hc
  have hfl := hset.sizes.file
  have hraw : (file.drop c.addr).take c.size = block := by
    have := h3
    unfold Encoded at this
    rw [hf.1, hf.2] at this
    simpa using this
  unfold rawD readChunk
  unfold allocOk
  rw [if_pos (by omega), ok_bind]
  unfold readRaw
  rw [if_neg (by omega), if_pos h1, ok_bind]
  rw [← h2, decode_encoded hset.sizes.elem h2 (by rw [h2]; exact hset.sizes.chunk) h3, hraw]

theorem chunks_nonempty {p : Profile} {ds : Dataset} {start count : List Nat} (hwf : WF p ds)
    (hb : InBounds start count ds.shape) : ∃ c, c ∈ ds.chunks := by
  have hl : start.length = count.length := by rw [hb.1, hb.2.1]
  have hlen := rowMajor_length start count hl
  have hpos : 0 < count.prod := prod_pos (mem_count_of_bounds hb)
  obtain ⟨x, hx⟩ := List.exists_mem_of_length_pos (l := rowMajor start count) (by omega)
  obtain ⟨c, -, hc, -⟩ := chunkAtCoord_ok hwf (inBox_shape hb (mem_rowMajor hl hx))
  exact ⟨c, hc⟩

/-- A file that holds the given contents in the places of the chunks. -/
theorem file_of_pieces {ds : Dataset} {N : Nat} (hin : ∀ c ∈ ds.chunks, c.addr + c.size ≤ N)
    (hap : ∀ c ∈ ds.chunks, ∀ c' ∈ ds.chunks,
      c = c' ∨ c.addr + c.size ≤ c'.addr ∨ c'.addr + c'.size ≤ c.addr)
    (raw : Chunk → List Byte) (hraw : ∀ c ∈ ds.chunks, (raw c).length = c.size) :
    ∃ file : List Byte, file.length = N ∧
      ∀ c ∈ ds.chunks, (file.drop c.addr).take c.size = raw c := by
  refine ⟨(List.range N).map fun i =>
    match ds.chunks.find? fun c => decide (c.addr ≤ i ∧ i < c.addr + c.size) with
    | some c => (raw c).getD (i - c.addr) 0
    | none => 0, by simp, fun c hc => ?_⟩
  have hN := hin c hc
  have hl := hraw c hc
  apply List.ext_getElem?
  intro i
  rw [List.getElem?_take]
  split
  · rename_i hi
    rw [List.getElem?_drop, List.getElem?_map, List.getElem?_range (by omega), Option.map_some]
    match hf : ds.chunks.find? fun c' => decide (c'.addr ≤ c.addr + i ∧ c.addr + i < c'.addr + c'.size) with
    | none =>
      have := List.find?_eq_none.1 hf c hc
      simp only [decide_eq_true_eq] at this
      omega
    | some c' =>
      have h1 := List.find?_some hf
      have h2 := List.mem_of_find?_eq_some hf
      simp only [decide_eq_true_eq] at h1
      have : c = c' := by
        rcases hap c hc c' h2 with h | h
        · exact h
        · omega
      subst this
      rw [hf]
      show some ((raw c).getD (c.addr + i - c.addr) 0) = _
      rw [Nat.add_sub_cancel_left, List.getD_eq_getElem?_getD, List.getElem?_eq_getElem (by omega)]
      rfl
  · rw [List.getElem?_eq_none (by omega)]

theorem markedBlock_length (ds : Dataset) (k : Nat) :
    (markedBlock ds k).length = ds.chunkShape.prod * ds.dsize := by simp [markedBlock]

theorem markedBlock_get {ds : Dataset} {k i : Nat} (h : i < ds.chunkShape.prod * ds.dsize) :
    (markedBlock ds k)[i]? = some (if i / ds.dsize = k then 1 else 0) := by
  simp [markedBlock, h]

theorem _root_.Hidefix.Spec.Writable.addrDet {inflate : List Byte → Option (List Byte)} {ds : Dataset} {N : Nat}
    (hP : Writable inflate ds N) : AddrDet ds := by
  intro c hc c' hc' h
  have h1 := hP.pos c hc
  have h2 := hP.pos c' hc'
  rcases hP.apart c hc c' hc' with rfl | h3
  · rfl
  · omega

theorem _root_.Hidefix.Spec.PlainStore.writable {ds : Dataset} {N : Nat} (hP : PlainStore ds N) {p : Profile} (hwf : WF p ds)
    (inflate : List Byte → Option (List Byte)) : Writable inflate ds N where
  elem := hP.elem
  width := fun h => by rw [hP.filters.2] at h; cases h
  pos := fun c hc => by rw [hP.size c hc]; exact Nat.mul_pos (prod_pos hwf.pos) hP.elem.1
  packs := fun c hc k => by
    refine ⟨markedBlock ds k, by rw [markedBlock_length, hP.size c hc], ?_⟩
    unfold Encoded
    rw [hP.filters.1, hP.filters.2]
    simp
  inside := hP.inside
  apart := hP.apart
  file := hP.file
  chunk := hP.chunk
  data := hP.data

/-- The element of the chunk `c` that is marked in a file in which element `k₀` of `c₀` is. -/
noncomputable def markOf (ds : Dataset) (c₀ : Chunk) (k₀ : Nat) (c : Chunk) : Nat :=
  open Classical in if c = c₀ then k₀ else ds.chunkShape.prod

theorem marked_setup {p : Profile} {ds : Dataset} {N : Nat} {inflate : List Byte → Option (List Byte)}
    (hP : Writable inflate ds N) (hwf : WF p ds) {ext : Extents} {start count : List Nat}
    (hsel : Selects ext ds.shape start count) (hb : InBounds start count ds.shape)
    {c₀ : Chunk} (hc₀ : c₀ ∈ ds.chunks) {k₀ : Nat} (_hk₀ : k₀ < ds.chunkShape.prod) :
    ∃ file, Setup p ⟨some file, inflate⟩ file ds (markA ds c₀ k₀) ext start count ∧
      ∀ c ∈ ds.chunks, rawD p ⟨some file, inflate⟩ file ds (ds.chunkShape.prod * ds.dsize) c =
        ok (markedBlock ds (markOf ds c₀ k₀ c)) := by
  choose! raw hraw henc using hP.packs
  obtain ⟨file, hlen, hpiece⟩ := file_of_pieces hP.inside hP.apart (fun c => raw c (markOf ds c₀ k₀ c))
    fun c hc => hraw c hc _
  have hd := hP.elem.1
  have hst : Stores inflate file ds (markA ds c₀ k₀) := by
    refine ⟨fun x => by simp [markA], fun c hc => ⟨by rw [hlen]; exact hP.inside c hc,
      markedBlock ds (markOf ds c₀ k₀ c), markedBlock_length _ _, by rw [hpiece c hc]; exact henc c hc _, ?_⟩⟩
    intro x hx hy k hk
    have hkl : k < ds.chunkShape.prod := by
      rw [hk]; exact linear_lt_of_box hx
    have hkd := Nat.mul_le_mul_right ds.dsize (Nat.succ_le_of_lt hkl)
    rw [Nat.succ_mul] at hkd
    unfold markA
    apply piece_const
    intro i hi
    rw [markedBlock_get (by omega), Nat.mul_comm k, Nat.mul_add_div hd, Nat.div_eq_of_lt hi, Nat.add_zero]
    congr 1
    unfold markOf
    by_cases hcc : c = c₀
    · subst hcc
      rw [if_pos rfl]
      by_cases hkk : k = k₀
      · subst hkk
        rw [if_pos rfl, if_pos ⟨hc, hx, hk⟩]
      · rw [if_neg hkk, if_neg]
        rintro ⟨-, -, h⟩
        exact hkk (hk.trans h.symm)
    · rw [if_neg hcc, if_neg (by omega), if_neg]
      rintro ⟨-, h, -⟩
      obtain ⟨c', -, -, -, hu⟩ := chunkAtCoord_ok hwf hy
      exact hcc ((hu c hc hx).trans (hu c₀ hc₀ h).symm)
  refine ⟨file, ⟨hwf, hP.addrDet, rfl, hst, ⟨⟨hd, hP.elem.2, hP.width⟩, hP.chunk, by rw [hlen]; exact hP.file,
    hP.data⟩, hsel, hb⟩, fun c hc => ?_⟩
  have hbl := markedBlock_length ds (markOf ds c₀ k₀ c)
  have hin := hP.inside c hc
  have hfl := hP.file
  unfold rawD readChunk allocOk
  rw [if_pos (by omega), ok_bind]
  unfold readRaw
  rw [if_neg (by omega), if_pos (by omega), ok_bind, ← hbl]
  exact decode_encoded ⟨hd, hP.elem.2, hP.width⟩ hbl (by rw [hbl]; exact hP.chunk)
    (by rw [hpiece c hc]; exact henc c hc _)

theorem flatMap_split {α β : Type} {f : α → List Byte} {g : β → List Byte} {d : Nat} (hd : 0 < d) :
    ∀ {a : List α} {b : List β}, (∀ x ∈ a, (f x).length = d) → (∀ y ∈ b, (g y).length = d) →
      a.flatMap f = b.flatMap g → List.Forall₂ (fun x y => f x = g y) a b
  | [], [], _, _, _ => .nil
  | [], y :: b, _, h2, h => by
    have := congrArg List.length h
    simp only [List.flatMap_nil, List.length_nil, List.flatMap_cons, List.length_append,
      h2 y (by simp)] at this
    omega
  | x :: a, [], h1, _, h => by
    have := congrArg List.length h
    simp only [List.flatMap_nil, List.length_nil, List.flatMap_cons, List.length_append,
      h1 x (by simp)] at this
    omega
  | x :: a, y :: b, h1, h2, h => by
    simp only [List.flatMap_cons] at h
    obtain ⟨e1, e2⟩ := List.append_inj h (by rw [h1 x (by simp), h2 y (by simp)])
    exact .cons e1 (flatMap_split hd (fun z hz => h1 z (by simp [hz]))
      (fun z hz => h2 z (by simp [hz])) e2)

/-- The bytes of the slices are the selected elements, whatever the file contains: then the slices
are the selection. -/
theorem enumerates_of_bytes {p : Profile} {ds : Dataset} {N : Nat} {inflate : List Byte → Option (List Byte)}
    (hP : Writable inflate ds N) (hwf : WF p ds) {ext : Extents} {start count : List Nat}
    (hsel : Selects ext ds.shape start count) (hb : InBounds start count ds.shape)
    {items : List Item} (hle : ∀ it ∈ items, it.start ≤ it.stop)
    (hmem : ∀ it ∈ items, it.chunk ∈ ds.chunks)
    (h : ∀ file A, Setup p ⟨some file, inflate⟩ file ds A ext start count →
      (∀ it ∈ items, Ready (rawD p ⟨some file, inflate⟩ file ds (ds.chunkShape.prod * ds.dsize))
        ds.dsize it.chunk it.stop) ∧
      blit (List.replicate (count.prod * ds.dsize) 2) 0 (items.flatMap
        (bytesOf (rawD p ⟨some file, inflate⟩ file ds (ds.chunkShape.prod * ds.dsize)) ds.dsize))
      = selected A start count) :
    Enumerates ds start count items := by
  have hl : start.length = count.length := by rw [hb.1, hb.2.1]
  -- what one marked file tells
  have key : ∀ c₀ ∈ ds.chunks, ∀ k₀, k₀ < ds.chunkShape.prod →
      List.Forall₂ (fun x (ck : Chunk × Nat) => StoredAt ds x c₀ k₀ → ck = (c₀, k₀))
        (rowMajor start count) (expand items) := by
    intro c₀ hc₀ k₀ hk₀
    obtain ⟨file, hset, hdec⟩ := marked_setup hP hwf hsel hb hc₀ hk₀
    obtain ⟨hready, hbytes⟩ := h _ _ hset
    generalize hD : rawD p ⟨some file, inflate⟩ file ds (ds.chunkShape.prod * ds.dsize) = D at *
    have hel : ∀ ck ∈ expand items, ck.1 ∈ ds.chunks ∧ ∃ v, D ck.1 = ok v ∧
        ck.2 * ds.dsize + ds.dsize ≤ v.length := by
      intro ck hck
      simp only [expand, List.mem_flatMap, List.mem_map, List.mem_range'_1] at hck
      obtain ⟨it, hit, k, hk, rfl⟩ := hck
      obtain ⟨v, hv, hvl⟩ := hready it hit
      refine ⟨hmem it hit, v, hv, ?_⟩
      have := Nat.mul_le_mul_right ds.dsize (show k + 1 ≤ it.stop by omega)
      rw [Nat.succ_mul] at this
      simp only
      omega
    rw [blit_zero] at hbytes
    have hall : items.flatMap (bytesOf D ds.dsize) = selected (markA ds c₀ k₀) start count := by
      have hlen := selected_length hset
      rw [← hbytes] at hlen
      have hdrop : (List.replicate (count.prod * ds.dsize) (2 : Byte)).drop
          (items.flatMap (bytesOf D ds.dsize)).length = [] := by
        rw [List.eq_nil_iff_forall_not_mem]
        intro b hmem
        have h2 : b = 2 := by
          have := List.mem_of_mem_drop hmem
          exact (List.mem_replicate.1 this).2
        have h3 : b ∈ selected (markA ds c₀ k₀) start count := by
          rw [← hbytes]; exact List.mem_append_right _ hmem
        simp only [selected, List.mem_flatMap] at h3
        obtain ⟨x, -, hx⟩ := h3
        rcases markA_bytes ds c₀ k₀ x b hx with h | h <;> (rw [h2] at h; revert h; decide)
      rw [hdrop, List.append_nil] at hbytes
      exact hbytes
    rw [bytes_expand hle] at hall
    have hsp := flatMap_split hP.elem.1
      (a := rowMajor start count) (b := expand items) (f := markA ds c₀ k₀)
      (fun x _ => by simp [markA])
      (fun ck hck => by
        obtain ⟨-, v, hv, hvl⟩ := hel ck hck
        rw [hv]
        simp only [valOf, List.length_take, List.length_drop]
        omega) hall.symm
    rw [List.forall₂_iff_zip] at hsp ⊢
    refine ⟨hsp.1, ?_⟩
    rintro x ⟨c, k⟩ hz hst
    have e := hsp.2 hz
    obtain ⟨hc, v, hv, hvl⟩ := hel (c, k) (List.of_mem_zip hz).2
    simp only at e hc hv hvl
    have hraw : v = markedBlock ds (markOf ds c₀ k₀ c) := by
      rw [hdec c hc] at hv
      exact (Outcome.ok.inj hv).symm
    have hd := hP.elem.1
    have h0 : (markA ds c₀ k₀ x)[0]? = some 1 := by
      unfold markA
      rw [if_pos hst, List.getElem?_replicate, if_pos hd]
    rw [hraw, markedBlock_length] at hvl
    rw [e, hv] at h0
    simp only [valOf] at h0
    rw [List.getElem?_take, if_pos hd, List.getElem?_drop, Nat.add_zero, hraw, markedBlock_get (by omega),
      Nat.mul_div_cancel _ hd] at h0
    have hk : k = markOf ds c₀ k₀ c := by
      by_contra hn
      rw [if_neg hn] at h0
      exact absurd (Option.some.inj h0) (by decide)
    have hkl : k < ds.chunkShape.prod := by
      have : (k + 1) * ds.dsize ≤ ds.chunkShape.prod * ds.dsize := by rw [Nat.succ_mul]; exact hvl
      exact Nat.lt_of_succ_le (Nat.le_of_mul_le_mul_right this hd)
    unfold markOf at hk
    split at hk
    · rename_i hcc
      rw [hcc, hk]
    · omega
  unfold Enumerates
  rw [List.forall₂_iff_zip]
  -- the lengths agree
  obtain ⟨c₁, hc₁⟩ := chunks_nonempty hwf hb
  have hpos := prod_pos hwf.pos
  refine ⟨(key c₁ hc₁ 0 hpos).length_eq, ?_⟩
  rintro x ⟨c, k⟩ hz
  have hx := mem_rowMajor hl (List.of_mem_zip hz).1
  obtain ⟨c₀, -, hc₀, hbox, -⟩ := chunkAtCoord_ok hwf (inBox_shape hb hx)
  have hk := key c₀ hc₀ (linear (List.zipWith (fun a b => a - b) x c₀.offset) ds.chunkShape)
    (linear_lt_of_box hbox)
  rw [List.forall₂_iff_zip] at hk
  have hst : StoredAt ds x c₀ (linear (List.zipWith (fun a b => a - b) x c₀.offset) ds.chunkShape) :=
    ⟨hc₀, hbox, rfl⟩
  have := hk.2 hz hst
  obtain ⟨rfl, rfl⟩ := Prod.mk.inj this
  exact hst

end Hidefix.Proofs
