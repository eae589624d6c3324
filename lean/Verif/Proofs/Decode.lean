import Verif.Proofs.Shuffle
import Verif.Proofs.Direct

/-!
# Decoding chunks, and what readers return for a file that stores an array
-/

set_option autoImplicit false

namespace Hidefix.Proofs
open Hidefix Hidefix.Spec Outcome

/-- The call never has undefined behaviour. -/
def NoUb {α : Type} (x : Outcome α) : Prop := x ≠ ub

theorem NoUb.bind {α β : Type} {x : Outcome α} {f : α → Outcome β} (hx : NoUb x)
    (hf : ∀ a, NoUb (f a)) : NoUb (x >>= f) := by
  cases x with
  | ok a => exact hf a
  | ub => exact absurd rfl hx
  | _ => simp [NoUb]

theorem OkOrPanic.noUb {α : Type} {x : Outcome α} (h : OkOrPanic x) : NoUb x := by
  rcases h with ⟨a, rfl⟩ | ⟨f, rfl⟩ <;> simp [NoUb]

theorem noUb_decodeChunk (p : Profile) (inflate : List Byte → Option (List Byte)) (raw : List Byte)
    (chunkSz dsz : Nat) (gz sh : Bool) : NoUb (decodeChunk p inflate raw chunkSz dsz gz sh) := by
  unfold decodeChunk
  refine (okp_debugAssert _ _).noUb.bind fun _ => ?_
  have hun : ∀ c, NoUb (if (sh && decide (1 < dsz)) = true then unshuffleSized c dsz else ok c) := by
    intro c
    split
    · rcases unshuffleSized_okp c dsz with ⟨d, h, -⟩ | ⟨f, h⟩ <;> simp [NoUb, h]
    · simp [NoUb]
  cases gz with
  | true =>
    simp only [if_true]
    refine NoUb.bind ?_ fun _ => NoUb.bind ?_ fun c => hun c
    · unfold allocOk; split <;> simp [NoUb]
    · unfold decompress; split
      · simp [NoUb]
      · split <;> simp [NoUb]
  | false =>
    simp only [Bool.false_eq_true, if_false]
    exact NoUb.bind (by simp [NoUb]) fun c => hun c

theorem noUb_readChunk (p : Profile) (io : Io) (file : List Byte) (addr size chunkSz dsz : Nat)
    (gz sh : Bool) : NoUb (readChunk p io file addr size chunkSz dsz gz sh) := by
  unfold readChunk
  refine NoUb.bind ?_ fun _ => NoUb.bind ?_ fun _ => noUb_decodeChunk _ _ _ _ _ _ _
  · unfold allocOk; split <;> simp [NoUb]
  · unfold readRaw
    split
    · simp [NoUb]
    split
    · simp [NoUb]
    split <;> simp [NoUb]

theorem safe_rawD (p : Profile) (io : Io) (file : List Byte) (ds : Dataset) (chunkSz : Nat) :
    SafeD (rawD p io file ds chunkSz) := fun _ => noUb_readChunk _ _ _ _ _ _ _ _ _

theorem elem_dvd {k n : Nat} : k ∣ n * k := Nat.dvd_mul_left k n

/-- Decoding inverts the filter pipeline. -/
theorem decode_encoded {p : Profile} {inflate : List Byte → Option (List Byte)} {ds : Dataset}
    {block raw : List Byte} {n : Nat}
    (hd : 0 < ds.dsize ∧ ds.dsize < 16 ∧
      (ds.shuffle = true → ds.dsize = 1 ∨ ds.dsize = 2 ∨ ds.dsize = 4 ∨ ds.dsize = 8))
    (hb : block.length = n * ds.dsize) (hl : block.length < 2 ^ 63)
    (he : Encoded inflate ds block raw) :
    decodeChunk p inflate raw block.length ds.dsize ds.gzip.isSome ds.shuffle = ok block := by
  have hdvd : ds.dsize ∣ block.length := by rw [hb]; exact elem_dvd
  have hpos : 0 < ds.dsize := by omega
  unfold decodeChunk
  rw [show decide (ds.dsize < 16) = true by simp; omega, debugAssert_true, ok_bind]
  have hslen : (if ds.shuffle then shuffled ds.dsize block else block).length = block.length := by
    split
    · obtain ⟨m, hm⟩ := hdvd
      rw [shuffled_length hpos hm, hm]
    · rfl
  have hcache : (if ds.gzip.isSome = true then do
        allocOk block.length
        decompress inflate raw (List.replicate block.length 0)
      else ok raw) = ok (if ds.shuffle then shuffled ds.dsize block else block) := by
    unfold Encoded at he
    cases hg : ds.gzip with
    | none => rw [hg] at he; simp only at he; simp [he]
    | some l =>
      rw [hg] at he
      simp only at he
      simp only [Option.isSome_some, if_true]
      unfold allocOk
      rw [if_pos (by omega), ok_bind]
      unfold decompress
      rw [he]
      simp only [List.length_replicate, hslen, Nat.le_refl, if_true]
      rw [List.drop_of_length_le (by simp), List.append_nil]
  have hun : (if (ds.shuffle && decide (1 < ds.dsize)) = true then
      unshuffleSized (if ds.shuffle then shuffled ds.dsize block else block) ds.dsize
      else ok (if ds.shuffle then shuffled ds.dsize block else block)) = ok block := by
    cases hsh : ds.shuffle with
    | false => simp
    | true =>
      simp only [if_true, Bool.true_and, decide_eq_true_eq]
      have := unshuffleSized_shuffled (hd.2.2 hsh) hdvd
      split
      · exact this
      · have h1 : ds.dsize = 1 := by omega
        rw [h1] at this ⊢
        exact this
  cases hg : ds.gzip.isSome with
  | true =>
    rw [hg] at hcache
    simp only [if_true] at hcache ⊢
    obtain ⟨_, h1, h2⟩ := bind_eq_ok.1 hcache
    rw [h1, ok_bind, h2, ok_bind]
    exact hun
  | false =>
    rw [hg] at hcache
    simp only [Bool.false_eq_true, if_false] at hcache ⊢
    rw [ok_bind, Outcome.ok.inj hcache]
    exact hun

/-- A chunk of a file that stores an array is read and decoded. -/
theorem rawD_stores {p : Profile} {io : Io} {file : List Byte} {ds : Dataset}
    {A : List Nat → List Byte} (hst : Stores io.inflate file ds A) (hsz : Sizes file ds)
    {c : Chunk} (hc : c ∈ ds.chunks) :
    ∃ block, rawD p io file ds (ds.chunkShape.prod * ds.dsize) c = ok block ∧
      block.length = ds.chunkShape.prod * ds.dsize ∧
      ∀ x, InBox c.offset ds.chunkShape x → InBox (ds.shape.map fun _ => 0) ds.shape x →
        ∀ k, k = linear (List.zipWith (fun a b => a - b) x c.offset) ds.chunkShape →
          (block.drop (k * ds.dsize)).take ds.dsize = A x := by
  obtain ⟨h1, block, h2, h3, h4⟩ := hst.chunk c hc
  refine ⟨block, ?_, h2, h4⟩
  have hf := hsz.file
  unfold rawD readChunk
  unfold allocOk
  rw [if_pos (by omega), ok_bind]
  unfold readRaw
  rw [if_neg (by omega), if_pos h1, ok_bind]
  rw [← h2]
  exact decode_encoded hsz.elem h2 (by rw [h2]; exact hsz.chunk) h3

theorem take_add' {α : Type} (l : List α) (a b : Nat) :
    l.take (a + b) = l.take a ++ (l.drop a).take b := List.take_add

/-- Bytes of consecutive positions are the bytes of the positions. -/
theorem part_elems (dsz : Nat) (v : List Byte) (a n : Nat) :
    part dsz v a (a + n) =
      (List.range' a n).flatMap fun k => (v.drop (k * dsz)).take dsz := by
  unfold part
  rw [Nat.add_sub_cancel_left]
  induction n generalizing a with
  | zero => simp
  | succ n ih =>
    rw [List.range'_succ, List.flatMap_cons, ← ih (a + 1), Nat.add_mul n 1, Nat.one_mul,
      Nat.add_comm (n * dsz), take_add', List.drop_drop, Nat.add_mul a 1, Nat.one_mul]

/-- The bytes of slices are the bytes of the positions they expand to. -/
theorem bytes_expand {D : Chunk → Outcome (List Byte)} {dsz : Nat} {items : List Item}
    (hle : ∀ it ∈ items, it.start ≤ it.stop) :
    items.flatMap (bytesOf D dsz) =
      (expand items).flatMap fun ck => ((valOf [] (D ck.1)).drop (ck.2 * dsz)).take dsz := by
  induction items with
  | nil => rfl
  | cons it its ih =>
    have hl := hle it (by simp)
    rw [List.flatMap_cons, ih fun x hx => hle x (by simp [hx])]
    unfold expand
    rw [List.flatMap_cons, List.flatMap_append]
    congr 1
    unfold bytesOf
    have : it.stop = it.start + (it.stop - it.start) := by omega
    conv => lhs; rw [this]
    rw [part_elems, List.flatMap_map]

theorem flatMap_forall₂ {α β γ : Type} {R : α → β → Prop} {f : α → List γ} {g : β → List γ}
    {a : List α} {b : List β} (h : List.Forall₂ R a b) (hfg : ∀ x ∈ a, ∀ y, R x y → f x = g y) :
    a.flatMap f = b.flatMap g := by
  induction h with
  | nil => rfl
  | cons hxy _ ih =>
    rw [List.flatMap_cons, List.flatMap_cons, hfg _ (by simp) _ hxy,
      ih fun x hx => hfg x (by simp [hx])]

/-- Members of a selection are in its box. -/
theorem mem_rowMajor {start count x : List Nat} (hl : start.length = count.length)
    (h : x ∈ rowMajor start count) : InBox start count x := by
  induction start generalizing count x with
  | nil =>
    have : count = [] := List.length_eq_zero_iff.1 hl.symm
    subst this
    simp only [rowMajor, List.mem_singleton] at h
    subst h; trivial
  | cons i is ih =>
    cases count with
    | nil => simp at hl
    | cons c cs =>
      simp only [rowMajor, List.mem_flatMap, List.mem_map, List.mem_range'_1] at h
      obtain ⟨y, hy, r, hr, rfl⟩ := h
      exact ⟨hy, ih (by simpa using hl) hr⟩

theorem inBox_shape {start count shape x : List Nat} (hb : InBounds start count shape)
    (h : InBox start count x) : InBox (shape.map fun _ => 0) shape x := by
  obtain ⟨h1, h2, h3⟩ := hb
  induction start generalizing count shape x with
  | nil =>
    have e1 : shape = [] := List.length_eq_zero_iff.1 h1.symm
    subst e1
    have e2 : count = [] := List.length_eq_zero_iff.1 h2
    subst e2
    cases x with
    | nil => trivial
    | cons y x => exact absurd h (by simp [InBox])
  | cons i is ih =>
    cases count with
    | nil => simp only [List.length_cons, List.length_nil] at h1 h2; omega
    | cons c cs =>
      cases shape with
      | nil => simp at h1
      | cons s ss =>
        cases x with
        | nil => exact absurd h (by simp [InBox])
        | cons y ys =>
          simp only [List.zip_cons_cons, List.mem_cons, forall_eq_or_imp] at h3
          obtain ⟨⟨hy1, hy2⟩, hys⟩ := h
          refine ⟨⟨Nat.zero_le _, by omega⟩, ih hys (by simpa using h1) (by simpa using h2) h3.2⟩

/-- For an enumeration of the selection, the slices' bytes are the elements of the selection. -/
theorem bytes_of_enumerates {p : Profile} {io : Io} {file : List Byte} {ds : Dataset}
    {A : List Nat → List Byte} {start count : List Nat} {items : List Item}
    (hst : Stores io.inflate file ds A) (hsz : Sizes file ds)
    (hb : InBounds start count ds.shape) (hen : Enumerates ds start count items)
    (hle : ∀ it ∈ items, it.start ≤ it.stop) :
    items.flatMap (bytesOf (rawD p io file ds (ds.chunkShape.prod * ds.dsize)) ds.dsize) =
      (rowMajor start count).flatMap A := by
  rw [bytes_expand hle]
  symm
  refine flatMap_forall₂ hen fun x hx ck hck => ?_
  obtain ⟨hc, hbox, hk⟩ := hck
  obtain ⟨block, h1, h2, h3⟩ := rawD_stores (p := p) hst hsz hc
  rw [h1]
  exact (h3 x hbox (inBox_shape hb (mem_rowMajor (by rw [hb.1, hb.2.1]) hx)) _ hk).symm

end Hidefix.Proofs
