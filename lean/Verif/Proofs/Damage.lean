import Verif.Proofs.Final
import Verif.Proofs.StreamRun

/-!
# Reads of a damaged file
-/

set_option autoImplicit false

namespace Hidefix.Proofs
open Hidefix Hidefix.Spec Outcome

/-- A failing loop fails with what a step says, after steps that succeeded. -/
theorem loop_fail {σ β : Type} {f : σ → β → Outcome σ} {s : σ} {bs : List β}
    (h : (loop f s bs).1 ≠ ok ()) : ∃ pre b post s', bs = pre ++ b :: post ∧
      pre.foldlM f s = ok s' ∧ (∀ x, f s' b ≠ ok x) ∧ (pre ++ [b]).foldlM f s = f s' b ∧
      (loop f s bs).1 = (f s' b >>= fun _ => ok ()) := by
  rcases loop_spec f s bs with ⟨t, h1, h2⟩ | ⟨pre, b, post, t, o, h1, h2, h3, h4, h5, h6⟩
  · rw [h2] at h; exact absurd rfl h
  · refine ⟨pre, b, post, t, h1, h2, by rw [h3]; exact h4, ?_, by rw [h5, h3]⟩
    rw [List.foldlM_append, h2, ok_bind, List.foldlM_cons]
    cases hb : f t b <;> rfl

/-- `Direct::read_to` when every chunk decodes or gives the error `e`. -/
theorem direct_err {p : Profile} {io : Io} {file : List Byte} {ds : Dataset}
    {chunkSz : Nat} {sort : List GItem → List GItem} {ext : Extents} {items : List Item} {vsz : Nat}
    {dst : List Byte} {e : Err} (hdet : AddrDet ds) (hsort : ∀ l : List GItem, l.Perm (sort l))
    (hc : chunkBytes p ds = ok chunkSz) (hf : io.file = some file)
    (h : Sliced p ds ext items vsz) (hn : vsz ≤ dst.length)
    (hD : ∀ it ∈ items, Ready (rawD p io file ds chunkSz) ds.dsize it.chunk it.stop ∨
      rawD p io file ds chunkSz it.chunk = err e)
    (hbad : ¬ ∀ it ∈ items, Ready (rawD p io file ds chunkSz) ds.dsize it.chunk it.stop) :
    (directReadTo p io ds sort ext dst).1 = err e := by
  have hp := hsort (tile 0 items)
  obtain ⟨s1, -, -⟩ := loop_sim (directStep p io file ds chunkSz)
    (pureStep p (rawD p io file ds chunkSz) ds.dsize) DirectSt.dst
    (LastInv ds (rawD p io file ds chunkSz)) (sort (tile 0 items))
    (fun s g hg hinv => directStep_sim hdet (h.mem _ (tile_mem (hp.mem_iff.2 hg))) hinv)
    ⟨none, dst⟩ (by intro a v hv; simp at hv)
  have hnok := (directReadTo_iff (p := p) (dst := dst) hdet hsort hc hf h hn).1 vsz
  have hno : ¬ (directReadTo p io ds sort ext dst).1 = ok vsz := fun ho => hbad (hnok.1 ho).2
  have hval : (directReadTo p io ds sort ext dst).1 =
      ((loop (pureStep p (rawD p io file ds chunkSz) ds.dsize) dst (sort (tile 0 items))).1 >>=
        fun _ => ok vsz) := by
    unfold directReadTo
    rw [hc, ok_bind, h.req, ok_bind, show decide (vsz ≤ dst.length) = true by simpa using hn,
      ensure_true, ok_bind, h.groups, ok_bind, hf]
    simp only [s1]
  rw [hval] at hno ⊢
  have hl : (loop (pureStep p (rawD p io file ds chunkSz) ds.dsize) dst (sort (tile 0 items))).1 ≠
      ok () := by
    intro hl; rw [hl] at hno; exact hno rfl
  obtain ⟨pre, b, post, s', h1, h2, h3, h4, h5⟩ := loop_fail hl
  have ht : ∀ g ∈ pre ++ [b], Tame ds.dsize vsz g := fun g hg => h.tame g (hp.mem_iff.2 (by
    rw [h1]; simp only [List.mem_append, List.mem_cons, List.not_mem_nil, or_false] at hg ⊢; tauto))
  have hpre := ((pureFold_iff (fun g hg => ht g (by simp [hg])) hn h.vszW).1 h2).1
  have hb : ¬ Ready (rawD p io file ds chunkSz) ds.dsize b.chunk b.stop := by
    intro hb
    refine h3 _ (h4.symm.trans ((pureFold_iff (p := p) ht hn h.vszW).2 ⟨?_, rfl⟩))
    intro g hg
    simp only [List.mem_append, List.mem_cons, List.not_mem_nil, or_false] at hg
    rcases hg with hg | rfl
    · exact hpre g hg
    · exact hb
  have hmem := tile_mem (hp.mem_iff.2 (show b ∈ sort (tile 0 items) by rw [h1]; simp))
  have hDb : rawD p io file ds chunkSz b.chunk = err e := (hD _ hmem).resolve_left hb
  rw [h5]
  unfold pureStep
  rw [hDb]; rfl

/-- The reader without cache, likewise. -/
theorem nocache_err {p : Profile} {io : Io} {file : List Byte} {ds : Dataset}
    {chunkSz : Nat} {ext : Extents} {items : List Item} {vsz : Nat} {dst : List Byte} {e : Err}
    (h : Sliced p ds ext items vsz) (hn : vsz ≤ dst.length)
    (hD : ∀ it ∈ items, Ready (rawD p io file ds chunkSz) ds.dsize it.chunk it.stop ∨
      rawD p io file ds chunkSz it.chunk = err e)
    (hbad : ¬ ∀ it ∈ items, Ready (rawD p io file ds chunkSz) ds.dsize it.chunk it.stop) :
    (nocacheReadTo p io file ds chunkSz ext dst).1 = err e := by
  have hno : ¬ (nocacheReadTo p io file ds chunkSz ext dst).1 = ok vsz := fun ho =>
    hbad ((nocacheReadTo_iff h hn vsz).1 ho).2
  have hval : (nocacheReadTo p io file ds chunkSz ext dst).1 =
      ((loop (nocacheStep p (rawD p io file ds chunkSz) ds.dsize) (0, dst) items).1 >>=
        fun _ => ok vsz) := by
    unfold nocacheReadTo
    rw [h.req, ok_bind, show decide (vsz ≤ dst.length) = true by simpa using hn, ensure_true, ok_bind,
      h.slices, ok_bind]
    simp only [ok_bind]
  rw [hval] at hno ⊢
  have hl : (loop (nocacheStep p (rawD p io file ds chunkSz) ds.dsize) (0, dst) items).1 ≠ ok () := by
    intro hl; rw [hl] at hno; exact hno rfl
  obtain ⟨pre, b, post, s', h1, h2, h3, h4, h5⟩ := loop_fail hl
  have hin : ∀ it ∈ pre ++ [b], it ∈ items := fun it hit => by
    rw [h1]; simp only [List.mem_append, List.mem_cons, List.not_mem_nil, or_false] at hit ⊢; tauto
  have htot : total pre + (b.stop - b.start) ≤ total items := by
    rw [h1]
    simp only [total, List.map_append, List.sum_append, List.map_cons, List.sum_cons]
    omega
  have hfit := Nat.le_trans h.fits hn
  have hfold := fun (l : List Item) (hl : ∀ it ∈ l, it ∈ items) (ht : total l ≤ total items) s' =>
    nocacheFold_iff (p := p) (D := rawD p io file ds chunkSz) (off := 0) (items := l)
    (dst := dst) (s' := s') (fun it hit => Nat.le_of_lt (h.le it (hl it hit)))
    (fun it hit => h.lt it (hl it hit))
    (by rw [Nat.zero_add]; exact Nat.le_trans (Nat.mul_le_mul_right _ ht) hfit)
  simp only [Nat.zero_mul] at hfold
  have hpre := ((hfold pre (fun it hit => hin it (by simp [hit])) (by omega) s').1 h2).1
  have hb : ¬ Ready (rawD p io file ds chunkSz) ds.dsize b.chunk b.stop := by
    intro hb
    refine h3 _ (h4.symm.trans ((hfold (pre ++ [b]) hin ?_ _).2 ⟨?_, rfl⟩))
    · have : total (pre ++ [b]) = total pre + (b.stop - b.start) := by simp [total]
      omega
    · intro g hg
      simp only [List.mem_append, List.mem_cons, List.not_mem_nil, or_false] at hg
      rcases hg with hg | rfl
      · exact hpre g hg
      · exact hb
  have hbm := hin b (by simp)
  have hDb : rawD p io file ds chunkSz b.chunk = err e := (hD _ hbm).resolve_left hb
  have hle := Nat.le_of_lt (h.le b hbm)
  have hlt := h.lt b hbm
  have hm : b.start * ds.dsize ≤ b.stop * ds.dsize := Nat.mul_le_mul_right _ hle
  rw [h5]
  unfold nocacheStep
  rw [mul64_of_lt (by omega), ok_bind, mul64_of_lt hlt, ok_bind,
    show decide (b.start * ds.dsize ≤ b.stop * ds.dsize) = true by simpa using hm, debugAssert_true,
    ok_bind, sub64_of_le hm, ok_bind, hDb]
  rfl

/-- `Direct::read_to_par`, likewise. -/
theorem par_err {p : Profile} {io : Io} {file : List Byte} {ds : Dataset}
    {chunkSz : Nat} {sort : List GItem → List GItem} {ext : Extents} {items : List Item} {vsz : Nat}
    {dst : List Byte} {e : Err} (hdet : AddrDet ds) (hsort : ∀ l : List GItem, l.Perm (sort l))
    (hc : chunkBytes p ds = ok chunkSz) (hf : io.file = some file)
    (h : Sliced p ds ext items vsz) (hn : vsz ≤ dst.length)
    (hD : ∀ it ∈ items, Ready (rawD p io file ds chunkSz) ds.dsize it.chunk it.stop ∨
      rawD p io file ds chunkSz it.chunk = err e)
    (hbad : ¬ ∀ it ∈ items, Ready (rawD p io file ds chunkSz) ds.dsize it.chunk it.stop)
    {res : Outcome Nat × List Byte} (hres : DirectReadToPar p io ds sort ext dst res) :
    res.1 = err e := by
  have hcase := directPar_cases hdet hsort hc hf (safe_rawD p io file ds chunkSz) h hn hres
  have hpre : parPrelude p ds sort ext dst.length = ok (chunkSz, vsz, chunkBy (sort (tile 0 items))) := by
    unfold parPrelude
    rw [hc, ok_bind, h.req, ok_bind, show decide (vsz ≤ dst.length) = true by simpa using hn,
      ensure_true, ok_bind, h.groups, ok_bind]
  obtain ⟨-, hno, hub, -⟩ := hcase.resolve_left fun hh => hbad hh.1
  cases hres with
  | early x hx hne =>
    rw [hpre] at hx
    exact absurd hx.symm (hne vsz)
  | ran csz vsz' groups r dst' hp hrun =>
    rw [hpre] at hp
    obtain ⟨rfl, hp2⟩ := Prod.mk.inj (Outcome.ok.inj hp)
    obtain ⟨rfl, rfl⟩ := Prod.mk.inj hp2
    cases hrun with
    | done ws hall hws => exact absurd rfl (hno vsz)
    | race i j hij ri rj hi hj a b ha hb ho => exact absurd rfl hub
    | failed r hr hne ws rest hws =>
      obtain ⟨grp, hg, rfl⟩ := List.mem_map.1 hr
      have hperm := hsort (tile 0 items)
      obtain ⟨g, gs, rfl, hadd⟩ := chunkBy_group _ grp hg
      have hin : ∀ x ∈ g :: gs, x ∈ tile 0 items := fun x hx =>
        hperm.mem_iff.2 (by
          rw [← chunkBy_flatten (sort (tile 0 items))]; exact List.mem_flatten.2 ⟨_, hg, hx⟩)
      have hDeq : ∀ x ∈ g :: gs, rawD p io file ds chunkSz x.chunk =
          rawD p io file ds chunkSz g.chunk := fun x hx =>
        rawD_local _ _ _ _ _ _ _ (hadd x hx) (hdet _ (h.mem _ (tile_mem (hin x hx))) _
          (h.mem _ (tile_mem (hin g (by simp)))) (hadd x hx))
      have hcs := parGroup_cases (p := p) (chunkSz := chunkSz) hdet hf
        (safe_rawD p io file ds chunkSz) hadd
        (fun x hx => h.mem _ (tile_mem (hin x hx))) (fun x hx => h.tame x (hin x hx)) hn h.vszW
      have hDg : rawD p io file ds chunkSz g.chunk = err e := by
        rcases hcs with ⟨-, h2⟩ | ⟨h1, -⟩
        · rw [h2] at hne; exact absurd rfl hne
        · by_contra hcon
          refine h1 fun x hx => ?_
          refine (hD _ (tile_mem (hin x hx))).resolve_right fun h' => hcon ?_
          rw [← hDeq x hx]; exact h'
      have : parGroup p io ds chunkSz dst.length (g :: gs) = (err e, []) := by
        unfold parGroup
        rw [hf]
        simp only
        rw [show readChunk p io file g.chunk.addr g.chunk.size chunkSz ds.dsize ds.gzip.isSome
          ds.shuffle = err e from hDg]
      rw [this]; rfl

/-- Reading a chunk of a truncated file: as before, or an I/O error, exactly if the chunk was cut. -/
theorem readChunk_take {p : Profile} {io io' : Io} {file : List Byte} {m addr size csz dsz : Nat}
    {gz sh : Bool} (hi : io'.inflate = io.inflate) (hin : addr + size ≤ file.length)
    (hlen : file.length < 2 ^ 63) :
    (m < addr + size ∧ 0 < size →
      readChunk p io' (file.take m) addr size csz dsz gz sh = err .io) ∧
    (¬ (m < addr + size ∧ 0 < size) →
      readChunk p io' (file.take m) addr size csz dsz gz sh =
        readChunk p io file addr size csz dsz gz sh) := by
  have hal : allocOk size = ok () := by unfold allocOk; rw [if_pos (by omega)]
  constructor
  · rintro ⟨h1, h2⟩
    unfold readChunk readRaw
    rw [hal, ok_bind, if_neg (by omega), List.length_take, if_neg (by omega), if_neg (by omega)]
    rfl
  · intro hn
    have hraw : readRaw (file.take m) addr size = readRaw file addr size := by
      unfold readRaw
      rw [if_neg (show ¬ 9223372036854775808 ≤ addr by omega), if_neg
        (show ¬ 9223372036854775808 ≤ addr by omega), if_pos hin, List.length_take]
      by_cases hs : size = 0
      · subst hs
        split
        · simp
        · simp
      · rw [if_pos (by omega)]
        congr 1
        rw [List.drop_take, List.take_take]
        congr 1
        omega
    unfold readChunk
    rw [hraw, hi]

end Hidefix.Proofs
