import Verif.Proofs.Cache

/-!
# The direct reader, sequential and parallel
-/

set_option autoImplicit false

namespace Hidefix.Proofs
open Hidefix Hidefix.Spec Outcome

/-- `last_chunk` holds a decoded chunk of the dataset. -/
def LastInv (ds : Dataset) (D : Chunk → Outcome (List Byte)) (s : DirectSt) : Prop :=
  ∀ a v, s.last = some (a, v) → ∃ ch ∈ ds.chunks, ch.addr = a ∧ D ch = ok v

theorem directStep_sim {p : Profile} {io : Io} {file : List Byte} {ds : Dataset} {chunkSz : Nat}
    (hdet : AddrDet ds) {s : DirectSt} {g : GItem} (hg : g.chunk ∈ ds.chunks)
    (hs : LastInv ds (rawD p io file ds chunkSz) s) :
    (directStep p io file ds chunkSz s g >>= fun s' => ok s'.dst) =
      pureStep p (rawD p io file ds chunkSz) ds.dsize s.dst g ∧
    ∀ s', directStep p io file ds chunkSz s g = ok s' →
      LastInv ds (rawD p io file ds chunkSz) s' := by
  have hD : directChunk p io file ds chunkSz s.last g.chunk = rawD p io file ds chunkSz g.chunk := by
    unfold directChunk
    split
    · rename_i a v hl
      obtain ⟨ch, hch, ha, hv⟩ := hs a v hl
      split
      · rename_i heq
        rw [← hv]
        exact rawD_local _ _ _ _ _ _ _ (by rw [ha, heq]) (hdet _ hch _ hg (by rw [ha, heq]))
      · rfl
    · rfl
  unfold directStep pureStep
  rw [hD]
  constructor
  · simp only [Outcome.bind_assoc, ok_bind, bind_pure]
  · intro s' h
    obtain ⟨v, hv, h⟩ := bind_eq_ok.1 h
    obtain ⟨_, -, h⟩ := bind_eq_ok.1 h
    obtain ⟨_, -, h⟩ := bind_eq_ok.1 h
    obtain ⟨_, -, h⟩ := bind_eq_ok.1 h
    obtain ⟨_, -, h⟩ := bind_eq_ok.1 h
    obtain ⟨_, -, h⟩ := bind_eq_ok.1 h
    obtain ⟨_, -, h⟩ := bind_eq_ok.1 h
    obtain ⟨_, -, h⟩ := bind_eq_ok.1 h
    obtain ⟨_, -, h⟩ := bind_eq_ok.1 h
    obtain ⟨_, -, h⟩ := bind_eq_ok.1 h
    obtain rfl := Outcome.ok.inj h
    rintro a w hw
    obtain ⟨rfl, rfl⟩ := Prod.mk.inj (Option.some.inj hw)
    exact ⟨_, hg, rfl, hv⟩

/-- The groups of slices as `Direct` sees them. -/
theorem Sliced.groups {p : Profile} {ds : Dataset} {ext : Extents} {items : List Item} {vsz : Nat}
    (h : Sliced p ds ext items vsz) (sort : List GItem → List GItem) :
    ds.groupChunkSlices p ext sort = ok (sort (tile 0 items)) := by
  unfold Dataset.groupChunkSlices
  rw [h.grouped, ok_bind]

theorem directReadTo_iff {p : Profile} {io : Io} {file : List Byte} {ds : Dataset}
    {chunkSz : Nat} {sort : List GItem → List GItem} {ext : Extents} {items : List Item} {vsz : Nat}
    {dst : List Byte} (hdet : AddrDet ds) (hsort : ∀ l : List GItem, l.Perm (sort l))
    (hc : chunkBytes p ds = ok chunkSz) (hf : io.file = some file)
    (h : Sliced p ds ext items vsz) (hn : vsz ≤ dst.length) :
    (∀ n, (directReadTo p io ds sort ext dst).1 = ok n ↔
      n = vsz ∧ ∀ it ∈ items, Ready (rawD p io file ds chunkSz) ds.dsize it.chunk it.stop) ∧
    ((∀ it ∈ items, Ready (rawD p io file ds chunkSz) ds.dsize it.chunk it.stop) →
      directReadTo p io ds sort ext dst =
      (ok vsz, blit dst 0 (items.flatMap (bytesOf (rawD p io file ds chunkSz) ds.dsize)))) := by
  have hp := hsort (tile 0 items)
  have hfold := fun d' => pureFold_iff (p := p) (D := rawD p io file ds chunkSz) (dst := dst)
    (dst' := d') (gs := sort (tile 0 items)) (fun g hg => h.tame g (hp.mem_iff.2 hg)) hn h.vszW
  obtain ⟨s1, s2, -⟩ := loop_sim (directStep p io file ds chunkSz)
    (pureStep p (rawD p io file ds chunkSz) ds.dsize) DirectSt.dst
    (LastInv ds (rawD p io file ds chunkSz)) (sort (tile 0 items))
    (fun s g hg hinv => directStep_sim hdet (h.mem _ (tile_mem (hp.mem_iff.2 hg))) hinv)
    ⟨none, dst⟩ (by intro a v hv; simp at hv)
  have hrd : (∀ g ∈ sort (tile 0 items), Ready (rawD p io file ds chunkSz) ds.dsize g.chunk g.stop) ↔
      ∀ it ∈ items, Ready (rawD p io file ds chunkSz) ds.dsize it.chunk it.stop := by
    rw [← h.ready_iff (D := rawD p io file ds chunkSz)]
    exact ⟨fun hh g hg => hh g (hp.mem_iff.1 hg), fun hh g hg => hh g (hp.mem_iff.2 hg)⟩
  unfold directReadTo
  rw [hc, ok_bind, h.req, ok_bind, show decide (vsz ≤ dst.length) = true by simpa using hn,
    ensure_true, ok_bind, h.groups, ok_bind, hf]
  simp only [s1]
  simp only at s2
  rw [s2]
  refine ⟨fun n => ⟨fun ho => ?_, ?_⟩, fun hr => ?_⟩
  · obtain ⟨_, h1, h2⟩ := bind_eq_ok.1 ho
    have := (hfold _).1 (loop_fst_ok h1)
    exact ⟨(Outcome.ok.inj h2).symm, hrd.1 this.1⟩
  · rintro ⟨rfl, hr⟩
    rw [loop_ok_iff.2 ((hfold _).2 ⟨hrd.2 hr, rfl⟩)]
    rfl
  · rw [loop_ok_iff.2 ((hfold _).2 ⟨hrd.2 hr, rfl⟩)]
    simp only [ok_bind]
    rw [h.writes hr (hp.symm.map _) hn]

/-! ## Parallel -/

theorem chunkBy_flatten (gs : List GItem) : (chunkBy gs).flatten = gs := by
  induction gs with
  | nil => rfl
  | cons g gs ih =>
    unfold chunkBy
    split
    · rename_i h hs rest heq
      rw [heq] at ih
      split <;> simp [← ih]
    · rw [List.flatten_cons, ih]; rfl

/-- Groups are not empty and hold slices of one address. -/
theorem chunkBy_group (gs : List GItem) : ∀ grp ∈ chunkBy gs, ∃ g rest, grp = g :: rest ∧
    ∀ x ∈ grp, x.chunk.addr = g.chunk.addr := by
  induction gs with
  | nil => simp [chunkBy]
  | cons g gs ih =>
    intro grp hgrp
    unfold chunkBy at hgrp
    split at hgrp
    · rename_i h hs rest heq
      rw [heq] at ih
      obtain ⟨h', hs', e1, e2⟩ := ih (h :: hs) (by simp)
      obtain ⟨rfl, rfl⟩ := List.cons.inj e1
      split at hgrp
      · rename_i hadd
        simp only [List.mem_cons] at hgrp
        rcases hgrp with rfl | hgrp
        · refine ⟨g, _, rfl, ?_⟩
          intro x hx
          rw [List.mem_cons] at hx
          rcases hx with rfl | hx
          · rfl
          · rw [e2 x hx, hadd]
        · exact ih grp (by simp [hgrp])
      · simp only [List.mem_cons] at hgrp
        rcases hgrp with rfl | rfl | hgrp
        · exact ⟨g, [], rfl, by simp⟩
        · exact ⟨_, _, rfl, e2⟩
        · exact ih grp (by simp [hgrp])
    · simp only [List.mem_cons] at hgrp
      rcases hgrp with rfl | hgrp
      · exact ⟨g, [], rfl, by simp⟩
      · exact ih grp hgrp

/-- A segment whose arithmetic is tame: it appends its write, or panics; never undefined
behaviour. -/
theorem parSegment_cases {p : Profile} {ds : Dataset} {v : List Byte} {n dstLen : Nat}
    {ws : List Write} {g : GItem} (ht : Tame ds.dsize n g) (hn : n ≤ dstLen) (hW : n < W) :
    (g.stop * ds.dsize ≤ v.length ∧ parSegment p ds v dstLen ws g =
      ok (ws ++ [⟨g.current * ds.dsize, part ds.dsize v g.start g.stop⟩])) ∨
    (¬ g.stop * ds.dsize ≤ v.length ∧ ∃ f, parSegment p ds v dstLen ws g = .panic f) := by
  obtain ⟨hle, hlt, hfit⟩ := ht
  have hm : g.start * ds.dsize ≤ g.stop * ds.dsize := Nat.mul_le_mul_right _ hle
  have hd : g.stop * ds.dsize - g.start * ds.dsize = (g.stop - g.start) * ds.dsize :=
    (Nat.sub_mul _ _ _).symm
  rw [Nat.add_mul] at hfit
  unfold parSegment
  rw [mul64_of_lt (by omega), ok_bind, mul64_of_lt hlt, ok_bind, mul64_of_lt (by omega), ok_bind,
    sub64_of_le hm, hd]
  by_cases hb : g.stop * ds.dsize ≤ v.length
  · left
    refine ⟨hb, ?_⟩
    have ha : g.start * ds.dsize ≤ v.length := by omega
    simp only [ha, hb, decide_true, debugAssert_true, ok_bind, sliceOf, hm, and_self, if_true]
    rw [if_neg (by omega), if_pos (by omega), hd]
    rfl
  · right
    refine ⟨hb, ?_⟩
    rcases okp_debugAssert p (decide (g.start * ds.dsize ≤ v.length)) with ⟨u, hu⟩ | ⟨f, hu⟩
    · rw [hu]
      simp only [ok_bind]
      rcases okp_debugAssert p (decide (g.stop * ds.dsize ≤ v.length)) with ⟨u, hu⟩ | ⟨f, hu⟩
      · rw [hu]
        simp only [ok_bind]
        split
        · exact ⟨_, rfl⟩
        · unfold sliceOf
          rw [if_neg (by omega)]
          exact ⟨_, rfl⟩
      · rw [hu]; exact ⟨f, rfl⟩
    · rw [hu]; exact ⟨f, rfl⟩

theorem parLoop {p : Profile} {ds : Dataset} {v : List Byte} {n dstLen : Nat}
    (gs : List GItem) (ws : List Write) (ht : ∀ g ∈ gs, Tame ds.dsize n g) (hn : n ≤ dstLen)
    (hW : n < W) :
    ((∀ g ∈ gs, g.stop * ds.dsize ≤ v.length) ∧ loop (parSegment p ds v dstLen) ws gs =
      (ok (), ws ++ gs.map fun g => ⟨g.current * ds.dsize, part ds.dsize v g.start g.stop⟩)) ∨
    (¬ (∀ g ∈ gs, g.stop * ds.dsize ≤ v.length) ∧ ∃ f k,
      loop (parSegment p ds v dstLen) ws gs = (.panic f, ws ++ (gs.take k).map fun g =>
        ⟨g.current * ds.dsize, part ds.dsize v g.start g.stop⟩)) := by
  induction gs generalizing ws with
  | nil => left; simp [loop]
  | cons g gs ih =>
    simp only [loop]
    rcases parSegment_cases (p := p) (v := v) (ws := ws) (ht g (by simp)) hn hW with
      ⟨h1, h2⟩ | ⟨h1, f, h2⟩
    · rw [h2]
      rcases ih (ws ++ [⟨g.current * ds.dsize, part ds.dsize v g.start g.stop⟩])
        (fun x hx => ht x (by simp [hx])) with ⟨i1, i2⟩ | ⟨i1, f, k, i2⟩
      · left
        exact ⟨by simpa using ⟨h1, i1⟩, by simp [i2]⟩
      · right
        refine ⟨fun h => i1 fun x hx => h x (by simp [hx]), f, k + 1, ?_⟩
        simp [i2]
    · right
      rw [h2]
      exact ⟨fun h => h1 (h g (by simp)), f, 0, by simp⟩

/-- A chunk that cannot be decoded is an error or a panic, never undefined behaviour
(`SafeD` is proved for the real decoder in `Proofs/Decode`). -/
def SafeD (D : Chunk → Outcome (List Byte)) : Prop := ∀ c, D c ≠ ub

/-- One group: its writes are those of a prefix of its slices; it succeeds exactly if all are
ready; it is never undefined behaviour. -/
theorem parGroup_cases {p : Profile} {io : Io} {file : List Byte} {ds : Dataset}
    {chunkSz n dstLen : Nat} (hdet : AddrDet ds) (hf : io.file = some file)
    (hsafe : SafeD (rawD p io file ds chunkSz)) {g0 : GItem} {rest : List GItem}
    (hadd : ∀ x ∈ g0 :: rest, x.chunk.addr = g0.chunk.addr)
    (hmem : ∀ x ∈ g0 :: rest, x.chunk ∈ ds.chunks)
    (ht : ∀ g ∈ g0 :: rest, Tame ds.dsize n g) (hn : n ≤ dstLen) (hW : n < W) :
    ((∀ g ∈ g0 :: rest, Ready (rawD p io file ds chunkSz) ds.dsize g.chunk g.stop) ∧
      parGroup p io ds chunkSz dstLen (g0 :: rest) =
        (ok (), (g0 :: rest).map (wr (rawD p io file ds chunkSz) ds.dsize))) ∨
    (¬ (∀ g ∈ g0 :: rest, Ready (rawD p io file ds chunkSz) ds.dsize g.chunk g.stop) ∧
      ∃ o k, o ≠ ok () ∧ o ≠ ub ∧ parGroup p io ds chunkSz dstLen (g0 :: rest) =
        (o, ((g0 :: rest).take k).map (wr (rawD p io file ds chunkSz) ds.dsize))) := by
  have hDeq : ∀ x ∈ g0 :: rest, rawD p io file ds chunkSz x.chunk =
      rawD p io file ds chunkSz g0.chunk := fun x hx =>
    rawD_local _ _ _ _ _ _ _ (hadd x hx) (hdet _ (hmem x hx) _ (hmem g0 (by simp)) (hadd x hx))
  unfold parGroup
  rw [hf]
  simp only
  cases hD : rawD p io file ds chunkSz g0.chunk with
  | ok v =>
    have hD' : readChunk p io file g0.chunk.addr g0.chunk.size chunkSz ds.dsize ds.gzip.isSome
      ds.shuffle = ok v := hD
    rw [hD']
    simp only
    have hready : ∀ x ∈ g0 :: rest, (Ready (rawD p io file ds chunkSz) ds.dsize x.chunk x.stop ↔
        x.stop * ds.dsize ≤ v.length) := by
      intro x hx
      simp [Ready, hDeq x hx, hD]
    have hwr : ∀ l : List GItem, (∀ x ∈ l, x ∈ g0 :: rest) →
        (l.map fun g => (⟨g.current * ds.dsize, part ds.dsize v g.start g.stop⟩ : Write)) =
        l.map (wr (rawD p io file ds chunkSz) ds.dsize) := by
      intro l hl
      apply List.map_congr_left
      intro x hx
      simp [wr, hDeq x (hl x hx), hD, valOf]
    rcases parLoop (p := p) (v := v) (dstLen := dstLen) (g0 :: rest) [] ht hn hW with
      ⟨h1, h2⟩ | ⟨h1, f, k, h2⟩
    · left
      refine ⟨fun x hx => (hready x hx).2 (h1 x hx), ?_⟩
      rw [h2, List.nil_append, hwr _ fun x hx => hx]
    · right
      refine ⟨fun h => h1 fun x hx => (hready x hx).1 (h x hx), .panic f, k, by simp, by simp, ?_⟩
      rw [h2, List.nil_append, hwr _ fun x hx => List.mem_of_mem_take hx]
  | err e =>
    have hD' : readChunk p io file g0.chunk.addr g0.chunk.size chunkSz ds.dsize ds.gzip.isSome
      ds.shuffle = err e := hD
    right
    refine ⟨fun h => ?_, err e, 0, by simp, by simp, by rw [hD']; simp⟩
    obtain ⟨v, hv, -⟩ := h g0 (by simp)
    rw [hD] at hv; simp at hv
  | panic e =>
    have hD' : readChunk p io file g0.chunk.addr g0.chunk.size chunkSz ds.dsize ds.gzip.isSome
      ds.shuffle = .panic e := hD
    right
    refine ⟨fun h => ?_, .panic e, 0, by simp, by simp, by rw [hD']; simp⟩
    obtain ⟨v, hv, -⟩ := h g0 (by simp)
    rw [hD] at hv; simp at hv
  | ub => exact absurd hD (hsafe _)
  | diverge =>
    have hD' : readChunk p io file g0.chunk.addr g0.chunk.size chunkSz ds.dsize ds.gzip.isSome
      ds.shuffle = diverge := hD
    right
    refine ⟨fun h => ?_, diverge, 0, by simp, by simp, by rw [hD']; simp⟩
    obtain ⟨v, hv, -⟩ := h g0 (by simp)
    rw [hD] at hv; simp at hv

/-- Two elements of different members of a list of lists whose flattening is pairwise related. -/
theorem pairwise_flatten_ne {α : Type} {R : α → α → Prop} (hsym : ∀ a b, R a b → R b a)
    {ls : List (List α)} (h : ls.flatten.Pairwise R) {i j : Nat} (hij : i ≠ j) {a b : List α}
    (ha : ls[i]? = some a) (hb : ls[j]? = some b) {x y : α} (hx : x ∈ a) (hy : y ∈ b) : R x y := by
  rw [List.pairwise_flatten] at h
  obtain ⟨-, h⟩ := h
  rw [List.pairwise_iff_getElem] at h
  obtain ⟨hi, rfl⟩ := List.getElem?_eq_some_iff.1 ha
  obtain ⟨hj, rfl⟩ := List.getElem?_eq_some_iff.1 hb
  rcases Nat.lt_or_gt_of_ne hij with hlt | hlt
  · exact h i j hi hj hlt x hx y hy
  · exact hsym _ _ (h j i hj hi hlt y hy x hx)

theorem Sliced.disjoint {p : Profile} {ds : Dataset} {ext : Extents} {items : List Item} {vsz : Nat}
    (_h : Sliced p ds ext items vsz) {D : Chunk → Outcome (List Byte)} {gs : List GItem}
    (hp : (tile 0 items).Perm gs) : gs.Pairwise fun a b => Disj (wr D ds.dsize a) (wr D ds.dsize b) :=
  hp.pairwise ((tile_ordered items 0).imp wr_disj) (fun h => h.symm)

/-- Every possible result of `read_to_par`, in terms of the slices. -/
theorem directPar_cases {p : Profile} {io : Io} {file : List Byte} {ds : Dataset}
    {chunkSz : Nat} {sort : List GItem → List GItem} {ext : Extents} {items : List Item} {vsz : Nat}
    {dst : List Byte} (hdet : AddrDet ds) (hsort : ∀ l : List GItem, l.Perm (sort l))
    (hc : chunkBytes p ds = ok chunkSz) (hf : io.file = some file)
    (hsafe : SafeD (rawD p io file ds chunkSz))
    (h : Sliced p ds ext items vsz) (hn : vsz ≤ dst.length) {res : Outcome Nat × List Byte}
    (hres : DirectReadToPar p io ds sort ext dst res) :
    ((∀ it ∈ items, Ready (rawD p io file ds chunkSz) ds.dsize it.chunk it.stop) ∧
      res = (ok vsz, blit dst 0 (items.flatMap (bytesOf (rawD p io file ds chunkSz) ds.dsize)))) ∨
    (¬ (∀ it ∈ items, Ready (rawD p io file ds chunkSz) ds.dsize it.chunk it.stop) ∧
      (∀ n, res.1 ≠ ok n) ∧ res.1 ≠ ub ∧ res.2.length = dst.length ∧
      ∀ i, vsz ≤ i → res.2[i]? = dst[i]?) := by
  have hpre : parPrelude p ds sort ext dst.length = ok (chunkSz, vsz, chunkBy (sort (tile 0 items))) := by
    unfold parPrelude
    rw [hc, ok_bind, h.req, ok_bind, show decide (vsz ≤ dst.length) = true by simpa using hn,
      ensure_true, ok_bind, h.groups, ok_bind]
  cases hres with
  | early e he hne =>
    rw [hpre] at he
    exact absurd he.symm (hne vsz)
  | ran chunkSz' vsz' groups r dst' hp hrun =>
    rw [hpre] at hp
    obtain ⟨rfl, hp2⟩ := Prod.mk.inj (Outcome.ok.inj hp)
    obtain ⟨rfl, rfl⟩ := Prod.mk.inj hp2
    have hperm := hsort (tile 0 items)
    generalize hL : sort (tile 0 items) = L at *
    have hflat := chunkBy_flatten L
    have hgrp : ∀ grp ∈ chunkBy L, ((∀ g ∈ grp, Ready (rawD p io file ds chunkSz) ds.dsize g.chunk
          g.stop) ∧ parGroup p io ds chunkSz dst.length grp =
          (ok (), grp.map (wr (rawD p io file ds chunkSz) ds.dsize))) ∨
        (¬ (∀ g ∈ grp, Ready (rawD p io file ds chunkSz) ds.dsize g.chunk g.stop) ∧
          ∃ o k, o ≠ ok () ∧ o ≠ ub ∧ parGroup p io ds chunkSz dst.length grp =
            (o, (grp.take k).map (wr (rawD p io file ds chunkSz) ds.dsize))) := by
      intro grp hgrp
      obtain ⟨g, rest, rfl, hadd⟩ := chunkBy_group L grp hgrp
      have hin : ∀ x ∈ g :: rest, x ∈ tile 0 items := fun x hx =>
        hperm.mem_iff.2 (by rw [← hflat]; exact List.mem_flatten.2 ⟨_, hgrp, hx⟩)
      exact parGroup_cases hdet hf hsafe hadd (fun x hx => h.mem _ (tile_mem (hin x hx)))
        (fun x hx => h.tame x (hin x hx)) hn h.vszW
    -- the writes of every group are among those of its slices
    have hsub : ∀ grp ∈ chunkBy L, ∃ k, (parGroup p io ds chunkSz dst.length grp).2 =
        (grp.take k).map (wr (rawD p io file ds chunkSz) ds.dsize) := by
      intro grp hg
      rcases hgrp grp hg with ⟨-, h2⟩ | ⟨-, o, k, -, -, h2⟩
      · exact ⟨grp.length, by rw [h2, List.take_length]⟩
      · exact ⟨k, by rw [h2]⟩
    have hready : (∀ grp ∈ chunkBy L, ∀ g ∈ grp,
        Ready (rawD p io file ds chunkSz) ds.dsize g.chunk g.stop) ↔
        ∀ it ∈ items, Ready (rawD p io file ds chunkSz) ds.dsize it.chunk it.stop := by
      rw [← h.ready_iff (D := rawD p io file ds chunkSz)]
      constructor
      · intro hh g hg
        have : g ∈ (chunkBy L).flatten := by rw [hflat]; exact hperm.mem_iff.1 hg
        obtain ⟨grp, h1, h2⟩ := List.mem_flatten.1 this
        exact hh grp h1 g h2
      · intro hh grp h1 g h2
        exact hh g (hperm.mem_iff.2 (by rw [← hflat]; exact List.mem_flatten.2 ⟨_, h1, h2⟩))
    cases hrun with
    | done ws hall hws =>
      left
      have hrd : ∀ grp ∈ chunkBy L, ∀ g ∈ grp,
          Ready (rawD p io file ds chunkSz) ds.dsize g.chunk g.stop := by
        intro grp hg
        rcases hgrp grp hg with ⟨h1, -⟩ | ⟨-, o, k, ho, -, h2⟩
        · exact h1
        · exact absurd (by
            have := hall _ (List.mem_map.2 ⟨grp, hg, rfl⟩)
            rw [h2] at this; exact this) ho
      have hr := hready.1 hrd
      refine ⟨hr, ?_⟩
      simp only [ok_bind]
      rw [h.writes hr ?_ hn]
      refine hws.trans ?_
      have : (((chunkBy L).map (parGroup p io ds chunkSz dst.length)).flatMap Prod.snd) =
          L.map (wr (rawD p io file ds chunkSz) ds.dsize) := by
        rw [List.flatMap_map]
        conv => rhs; rw [← hflat, List.map_flatten]
        rw [List.flatMap_def]
        congr 1
        apply List.map_congr_left
        intro grp hg
        rcases hgrp grp hg with ⟨-, h2⟩ | ⟨h1, -⟩
        · rw [h2]
        · exact absurd (hrd grp hg) h1
      rw [this]
      exact hperm.symm.map _
    | failed r' hr' hne ws rest hws =>
      right
      obtain ⟨grp, hg, rfl⟩ := List.mem_map.1 hr'
      rcases hgrp grp hg with ⟨-, h2⟩ | ⟨h1, o, k, ho, hub, h2⟩
      · rw [h2] at hne; exact absurd rfl hne
      · refine ⟨fun hr => h1 (hready.2 hr grp hg), ?_, ?_, ?_, ?_⟩
        · intro n hn'
          rw [h2] at hn'
          obtain ⟨u, hu, -⟩ := bind_eq_ok.1 hn'
          exact ho hu
        · rw [h2]
          simp only
          cases o <;> simp at hub ⊢
        all_goals
          have hin : ∀ w ∈ ws, ∃ g ∈ tile 0 items, w = wr (rawD p io file ds chunkSz) ds.dsize g := by
            intro w hw
            have : w ∈ ((chunkBy L).map (parGroup p io ds chunkSz dst.length)).flatMap Prod.snd :=
              hws.mem_iff.1 (by simp [hw])
            obtain ⟨run, hrun, hwr⟩ := List.mem_flatMap.1 this
            obtain ⟨grp', hg', rfl⟩ := List.mem_map.1 hrun
            obtain ⟨k', hk'⟩ := hsub grp' hg'
            rw [hk'] at hwr
            obtain ⟨g, hgm, rfl⟩ := List.mem_map.1 hwr
            refine ⟨g, hperm.mem_iff.2 ?_, rfl⟩
            rw [← hflat]
            exact List.mem_flatten.2 ⟨_, hg', List.mem_of_mem_take hgm⟩
          have hrange : ∀ w ∈ ws, InRange vsz w := by
            intro w hw
            obtain ⟨g, hg, rfl⟩ := hin w hw
            exact wr_inRange (h.tame g hg)
        · exact applyWrites_length fun w hw => Nat.le_trans (hrange w hw) hn
        · intro i hi
          exact applyWrites_frame (fun w hw => Nat.le_trans (hrange w hw) hn) fun w hw => by
            have := hrange w hw
            unfold InRange at this
            omega
    | race i j hij ri rj hi hj a b ha hb ho =>
      exfalso
      rw [List.getElem?_map] at hi hj
      obtain ⟨gi, hgi, rfl⟩ := Option.map_eq_some_iff.1 hi
      obtain ⟨gj, hgj, rfl⟩ := Option.map_eq_some_iff.1 hj
      obtain ⟨ki, hki⟩ := hsub gi (List.mem_of_getElem? hgi)
      obtain ⟨kj, hkj⟩ := hsub gj (List.mem_of_getElem? hgj)
      rw [hki] at ha
      rw [hkj] at hb
      obtain ⟨x, hx, rfl⟩ := List.mem_map.1 ha
      obtain ⟨y, hy, rfl⟩ := List.mem_map.1 hb
      have hpw := h.disjoint (D := rawD p io file ds chunkSz) hperm
      rw [← hflat] at hpw
      exact pairwise_flatten_ne (R := fun a b => Disj (wr (rawD p io file ds chunkSz) ds.dsize a)
        (wr (rawD p io file ds chunkSz) ds.dsize b)) (fun _ _ h => h.symm) hpw hij hgi hgj
        (List.mem_of_mem_take hx) (List.mem_of_mem_take hy) ho

end Hidefix.Proofs
