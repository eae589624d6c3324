import Verif.Model.Unsteady
import Verif.Props.Local

/-!
# Properties C66, C67: reads that fail now and then, files that are written to meanwhile

`Model/Unsteady` lets every operation on the file meet its own state of the disk. C66: as long as the
chunks that a selection needs stay as they are, a read that is disturbed by failing operations and by
writes to the rest of the file returns an I/O error, or exactly what the undisturbed read returns.
C67: a caching reader is not spoiled by disturbed reads: later reads are as if they had never happened.
-/

set_option autoImplicit false

namespace Hidefix.Props
open Hidefix Hidefix.Spec Hidefix.Proofs Outcome

/-- The chunk `c` is in `f` as it is in `file`, or `f` ends before the chunk does. -/
def SameOrCut (file f : List Byte) (c : Chunk) : Prop :=
  (file.drop c.addr).take c.size = (f.drop c.addr).take c.size ∨ f.length < c.addr + c.size

/-- Whenever the file can be opened and read, the chunks of `ds` that the selection needs are as in `file`,
or the file is too short for them. -/
def KeepsNeeded (ds : Dataset) (ext : Extents) (file : List Byte) (disk : Disk) : Prop :=
  ∀ k f, disk k = some f → ∀ start count, Selects ext ds.shape start count →
    ∀ c, Needs ds start count c → SameOrCut file f c

/-- Whenever the file can be opened and read, all chunks of `ds` are as in `file`, or the file is too short
for them. -/
def KeepsChunks (ds : Dataset) (file : List Byte) (disk : Disk) : Prop :=
  ∀ k f, disk k = some f → ∀ c ∈ ds.chunks, SameOrCut file f c

/-- Reading bytes from `f` gives what it gives on `F`, or an I/O error. -/
def RawOr (f F : List Byte) (a n : Nat) : Prop := readRaw f a n = readRaw F a n ∨ readRaw f a n = err .io

theorem SameOrCut.raw {F f : List Byte} {c : Chunk} (h : SameOrCut F f c) : RawOr f F c.addr c.size := by
  rcases h with h | h
  · exact .inl (readRaw_same h).symm
  · unfold RawOr readRaw
    by_cases h0 : c.size = 0
    · left; simp [h0]
    · right
      rw [if_neg (c := c.addr + c.size ≤ f.length) (by omega), if_neg h0]
      simp

theorem bind_or {α β : Type} {x : Outcome α} {f g : α → Outcome β}
    (h : ∀ a, f a = g a ∨ f a = err .io) : (x >>= f) = (x >>= g) ∨ (x >>= f) = err .io := by
  cases x with
  | ok a => exact h a
  | _ => exact .inl rfl

theorem or_bind {α β : Type} {x y : Outcome α} {f : α → Outcome β} (h : x = y ∨ x = err .io) :
    (x >>= f) = (y >>= f) ∨ (x >>= f) = err .io := by
  rcases h with rfl | rfl
  · exact .inl rfl
  · exact .inr rfl

/-- A loop on a disk that does not change. -/
theorem unsteady_const {σ β : Type} {step : List Byte → σ → β → Outcome σ}
    {need : σ → β → Option (Nat × Nat)} {f : List Byte}
    (hnone : ∀ s b, need s b = none → step [] s b = step f s b) (bs : List β) (s : σ) (k : Nat) :
    (loop (unsteady step need fun _ => some f) (s, k) bs).1 = (loop (step f) s bs).1 ∧
    (loop (unsteady step need fun _ => some f) (s, k) bs).2.1 = (loop (step f) s bs).2 := by
  induction bs generalizing s k with
  | nil => exact ⟨rfl, rfl⟩
  | cons b bs ih =>
    have : ∃ k', unsteady step need (fun _ => some f) (s, k) b = (step f s b >>= fun s' => ok (s', k')) := by
      unfold unsteady
      cases hn : need s b with
      | none => exact ⟨k, by rw [hnone s b hn]⟩
      | some x => exact ⟨k + 1, rfl⟩
    obtain ⟨k', h⟩ := this
    unfold loop
    rw [h]
    cases hg : step f s b with
    | ok s' => exact ih s' k'
    | _ => exact ⟨rfl, rfl⟩

/-! ## Loops -/

/-- A disturbed loop does all that the undisturbed loop does, or ends with an I/O error after some of
its iterations. -/
theorem unsteady_loop {σ β : Type} {step : List Byte → σ → β → Outcome σ}
    {need : σ → β → Option (Nat × Nat)} {disk : Disk} {g : σ → β → Outcome σ} {bs : List β}
    (hnone : ∀ s, ∀ b ∈ bs, need s b = none → step [] s b = g s b)
    (hsome : ∀ k f, disk k = some f → ∀ s, ∀ b ∈ bs, step f s b = g s b ∨ step f s b = err .io) (s : σ) (k : Nat) :
    ((loop (unsteady step need disk) (s, k) bs).1 = (loop g s bs).1 ∧
      (loop (unsteady step need disk) (s, k) bs).2.1 = (loop g s bs).2) ∨
    ((loop (unsteady step need disk) (s, k) bs).1 = err .io ∧ ∃ pre post, bs = pre ++ post ∧
      pre.foldlM g s = ok (loop (unsteady step need disk) (s, k) bs).2.1) := by
  induction bs generalizing s k with
  | nil => exact .inl ⟨rfl, rfl⟩
  | cons b bs ih =>
    have hstep : unsteady step need disk (s, k) b = err .io ∨
        ∃ k', unsteady step need disk (s, k) b = (g s b >>= fun s' => ok (s', k')) := by
      unfold unsteady
      cases hn : need s b with
      | none => exact .inr ⟨k, by rw [hnone s b (by simp) hn]⟩
      | some x =>
        cases hd : disk k with
        | none => exact .inl rfl
        | some f =>
          rcases hsome k f hd s b (by simp) with h | h
          · exact .inr ⟨k + 1, by simp only [h]⟩
          · left; simp only [h]; rfl
    rcases hstep with h | ⟨k', h⟩
    · right
      unfold loop
      rw [h]
      exact ⟨rfl, [], b :: bs, rfl, rfl⟩
    · unfold loop
      rw [h]
      cases hg : g s b with
      | ok s' =>
        simp only [ok_bind]
        rcases ih (fun s x hx => hnone s x (by simp [hx]))
          (fun k f hd s x hx => hsome k f hd s x (by simp [hx])) s' k' with h1 | ⟨h1, pre, post, h2, h3⟩
        · exact .inl h1
        · exact .inr ⟨h1, b :: pre, post, by simp [h2], by
            rw [List.foldlM_cons, hg]; exact h3⟩
      | err e => exact .inl ⟨rfl, rfl⟩
      | panic e => exact .inl ⟨rfl, rfl⟩
      | ub => exact .inl ⟨rfl, rfl⟩
      | diverge => exact .inl ⟨rfl, rfl⟩

/-- A slice copied into the destination is a write that does not depend on the destination. -/
theorem pureStep_write {p : Profile} {D : Chunk → Outcome (List Byte)} {dsz : Nat} {g : GItem}
    {dst d' : List Byte} (h : pureStep p D dsz dst g = ok d') :
    ∃ w : Write, InRange dst.length w ∧ ∀ e : List Byte, e.length = dst.length →
      pureStep p D dsz e g = ok (blit e w.off w.bytes) := by
  unfold pureStep at h
  obtain ⟨cache, h1, h⟩ := bind_eq_ok.1 h
  obtain ⟨start, h2, h⟩ := bind_eq_ok.1 h
  obtain ⟨stop, h3, h⟩ := bind_eq_ok.1 h
  obtain ⟨cur, h4, h⟩ := bind_eq_ok.1 h
  obtain ⟨_, h5, h⟩ := bind_eq_ok.1 h
  obtain ⟨_, h6, h⟩ := bind_eq_ok.1 h
  obtain ⟨sz, h7, h⟩ := bind_eq_ok.1 h
  obtain ⟨hi, h8, h⟩ := bind_eq_ok.1 h
  obtain ⟨src, h9, h⟩ := bind_eq_ok.1 h
  unfold copyTo at h
  split at h
  · rename_i hc
    refine ⟨⟨cur, src⟩, by show cur + src.length ≤ dst.length; omega, fun e he => ?_⟩
    unfold pureStep
    simp only [h1, h2, h3, h4, h5, h6, h7, h8, h9, ok_bind]
    unfold copyTo
    rw [if_pos (by rw [he]; exact hc)]
  · simp at h

theorem pureFold_writes {p : Profile} {D : Chunk → Outcome (List Byte)} {dsz : Nat}
    {gs : List GItem} {dst d' : List Byte} (h : gs.foldlM (pureStep p D dsz) dst = ok d') :
    ∃ ws : List Write, (∀ w ∈ ws, InRange dst.length w) ∧ ∀ e : List Byte, e.length = dst.length →
      gs.foldlM (pureStep p D dsz) e = ok (applyWrites e ws) := by
  induction gs generalizing dst with
  | nil => exact ⟨[], by simp, fun e _ => rfl⟩
  | cons g gs ih =>
    rw [List.foldlM_cons] at h
    obtain ⟨d1, h1, h⟩ := bind_eq_ok.1 h
    obtain ⟨w, hw, hall⟩ := pureStep_write h1
    have : d1 = blit dst w.off w.bytes := Outcome.ok.inj (h1.symm.trans (hall dst rfl))
    have hl : d1.length = dst.length := by rw [this]; exact blit_length hw
    obtain ⟨ws, hr, hws⟩ := ih h
    refine ⟨w :: ws, ?_, fun e he => ?_⟩
    · intro x hx
      rcases List.mem_cons.1 hx with rfl | hx
      · exact hw
      · rw [← hl]; exact hr x hx
    · rw [List.foldlM_cons, hall e he, ok_bind, hws _ (by rw [blit_length (by rw [he]; exact hw), he, hl]),
        applyWrites_cons]

theorem applyWrites_old_or_fixed {ws : List Write} {dst : List Byte}
    (hr : ∀ w ∈ ws, InRange dst.length w) (i : Nat) :
    (applyWrites dst ws)[i]? = dst[i]? ∨
    ∀ e : List Byte, e.length = dst.length → (applyWrites e ws)[i]? = (applyWrites dst ws)[i]? := by
  by_cases hc : ∃ w ∈ ws, w.off ≤ i ∧ i < w.off + w.bytes.length
  · right
    intro e he
    induction ws generalizing dst e with
    | nil => obtain ⟨w, hw, -⟩ := hc; simp at hw
    | cons w ws ih =>
      rw [applyWrites_cons, applyWrites_cons]
      have hl : (blit dst w.off w.bytes).length = dst.length := blit_length (hr w (by simp))
      have hl' : (blit e w.off w.bytes).length = e.length := blit_length (by rw [he]; exact hr w (by simp))
      have hr' : ∀ x ∈ ws, InRange (blit dst w.off w.bytes).length x := fun x hx => by
        rw [hl]; exact hr x (by simp [hx])
      by_cases hc' : ∃ w ∈ ws, w.off ≤ i ∧ i < w.off + w.bytes.length
      · exact ih hr' hc' _ (by rw [hl', hl, he])
      · have hi : ∀ x ∈ ws, ¬ (x.off ≤ i ∧ i < x.off + x.bytes.length) := fun x hx h => hc' ⟨x, hx, h⟩
        have hw : w.off ≤ i ∧ i < w.off + w.bytes.length := by
          obtain ⟨x, hx, h⟩ := hc
          rcases List.mem_cons.1 hx with rfl | hx
          · exact h
          · exact absurd h (hi x hx)
        rw [applyWrites_frame hr' hi, applyWrites_frame (fun x hx => by
            rw [hl', he]; exact hr x (by simp [hx])) hi,
          blit_getElem? (hr w (by simp)), blit_getElem? (by rw [he]; exact hr w (by simp)),
          if_pos hw, if_pos hw]
  · left
    exact applyWrites_frame hr fun w hw h => hc ⟨w, hw, h⟩

/-! ## The direct reader -/

theorem readChunk_or {p : Profile} {io : Io} {f F : List Byte} {a n csz dsz : Nat} {gz sh : Bool}
    (h : RawOr f F a n) :
    readChunk p io f a n csz dsz gz sh = readChunk p (withFile io F) F a n csz dsz gz sh ∨
    readChunk p io f a n csz dsz gz sh = err .io := by
  rcases h with h | h
  · exact .inl (readChunk_same h)
  · unfold readChunk
    rw [h]
    cases allocOk n with
    | ok u => exact .inr rfl
    | _ => exact .inl rfl

theorem directStep_file {p : Profile} {io : Io} {F f : List Byte} {ds : Dataset} {csz : Nat}
    {s : DirectSt} {g : GItem}
    (h : RawOr f F g.chunk.addr g.chunk.size) :
    directStep p io f ds csz s g = directStep p (withFile io F) F ds csz s g ∨
    directStep p io f ds csz s g = err .io := by
  rcases readChunk_or (p := p) (io := io) (csz := csz) (dsz := ds.dsize) (gz := ds.gzip.isSome)
    (sh := ds.shuffle) h with h | h
  · left; unfold directStep directChunk; rw [h]
  · unfold directStep directChunk
    rw [h]
    cases s.last with
    | none => exact .inr rfl
    | some x =>
      by_cases ha : g.chunk.addr = x.1
      · left; simp only [ha, if_true]
      · right; simp only [ha, if_false]; rfl

theorem directStep_nofile {p : Profile} {io : Io} {F : List Byte} {ds : Dataset} {csz : Nat}
    {s : DirectSt} {g : GItem} (h : directFetch s g = none) :
    directStep p io [] ds csz s g = directStep p (withFile io F) F ds csz s g := by
  unfold directFetch at h
  unfold directStep directChunk
  cases hl : s.last with
  | none => rw [hl] at h; simp at h
  | some x =>
    obtain ⟨a, v⟩ := x
    rw [hl] at h
    by_cases ha : g.chunk.addr = a
    · simp only [ha, if_true]
    · simp [ha] at h

theorem direct_unsteady {p : Profile} {io : Io} {F : List Byte} {disk : Disk} {ds : Dataset}
    {sort : List GItem → List GItem} {ext : Extents} {dst : List Byte}
    (hraw : ∀ l, ds.groupChunkSlices p ext sort = ok l → ∀ k f, disk k = some f → ∀ g ∈ l,
      RawOr f F g.chunk.addr g.chunk.size) :
    directReadToU p io disk ds sort ext dst = directReadTo p (withFile io F) ds sort ext dst ∨
    ((directReadToU p io disk ds sort ext dst).1 = err .io ∧ ∃ csz l pre post s,
      chunkBytes p ds = ok csz ∧ ds.groupChunkSlices p ext sort = ok l ∧ l = pre ++ post ∧
      pre.foldlM (directStep p (withFile io F) F ds csz) ⟨none, dst⟩ = ok s ∧
      (directReadToU p io disk ds sort ext dst).2 = s.dst) := by
  unfold directReadToU directReadTo
  cases hc : chunkBytes p ds with
  | ok csz =>
    cases hv : reqBytes p ds ext with
    | ok vsz =>
      cases he : ensure (decide (vsz ≤ dst.length)) Err.capacity with
      | ok u =>
        cases hg : ds.groupChunkSlices p ext sort with
        | ok l =>
          cases hd : disk 0 with
          | none =>
            right
            simp only [ok_bind, he]
            exact ⟨rfl, csz, l, [], l, ⟨none, dst⟩, rfl, rfl, rfl, rfl, rfl⟩
          | some f0 =>
            have := unsteady_loop (step := fun f => directStep p io f ds csz) (need := directFetch)
              (disk := disk) (g := directStep p (withFile io F) F ds csz) (bs := l)
              (fun s g _ h => directStep_nofile h)
              (fun k f hk s g hgl => directStep_file (hraw l hg k f hk g hgl)) ⟨none, dst⟩ 1
            simp only [ok_bind, he, withFile] at this ⊢
            rcases this with ⟨h1, h2⟩ | ⟨h1, pre, post, h2, h3⟩
            · left; rw [h1, h2]
            · right
              exact ⟨by rw [h1]; rfl, csz, l, pre, post, _, rfl, rfl, h2, h3, rfl⟩
        | _ => left; simp [withFile, he]
      | _ => left; simp [withFile, he]
    | _ => left; simp [withFile]
  | _ => left; simp [withFile]

theorem keeps_items {p : Profile} {ds : Dataset} {ext : Extents} {F : List Byte} {disk : Disk}
    (hwf : WF p ds) (hfit : EndsFit ds ext) (hkeep : KeepsNeeded ds ext F disk) :
    ∀ t, ds.chunkSlices p ext = ok t → ∀ k f, disk k = some f → ∀ it ∈ t.items,
      RawOr f F it.chunk.addr it.chunk.size := by
  intro t h k f hk it hit
  obtain ⟨start, count, hsel, hn⟩ := slices_need hwf hfit h
  exact (hkeep k f hk start count hsel _ (hn it hit)).raw

theorem keeps_groups {p : Profile} {ds : Dataset} {ext : Extents} {F : List Byte} {disk : Disk}
    {sort : List GItem → List GItem} (hwf : WF p ds) (hfit : EndsFit ds ext)
    (hkeep : KeepsNeeded ds ext F disk) (hsort : ∀ l : List GItem, l.Perm (sort l)) :
    ∀ l, ds.groupChunkSlices p ext sort = ok l → ∀ k f, disk k = some f → ∀ g ∈ l,
      RawOr f F g.chunk.addr g.chunk.size :=
  fun l hl k f hk g hg => by
    unfold Dataset.groupChunkSlices at hl
    obtain ⟨l', h1, hl⟩ := bind_eq_ok.1 hl
    obtain rfl := Outcome.ok.inj hl
    obtain ⟨items, h2, h3⟩ := groupUnsorted_inv h1
    obtain ⟨it, hit, e⟩ := groupScan_chunks h3 g ((hsort l').mem_iff.2 hg)
    rw [← e]
    exact keeps_items hwf hfit hkeep _ h2 k f hk it hit

theorem groups_mem {p : Profile} {ds : Dataset} {ext : Extents} {sort : List GItem → List GItem}
    (hsort : ∀ l : List GItem, l.Perm (sort l)) {l : List GItem}
    (h : ds.groupChunkSlices p ext sort = ok l) : ∀ g ∈ l, g.chunk ∈ ds.chunks := by
  unfold Dataset.groupChunkSlices at h
  obtain ⟨l', h1, h⟩ := bind_eq_ok.1 h
  obtain rfl := Outcome.ok.inj h
  obtain ⟨items, h2, h3⟩ := groupUnsorted_inv h1
  intro g hg
  obtain ⟨it, hit, e⟩ := groupScan_chunks h3 g ((hsort l').mem_iff.2 hg)
  rw [← e]
  exact chunkSlices_mem h2 it hit

theorem direct_fold {p : Profile} {io : Io} {F : List Byte} {ds : Dataset}
    {sort : List GItem → List GItem} {ext : Extents} {dst : List Byte} (hf : io.file = some F) {n : Nat}
    (hok : (directReadTo p io ds sort ext dst).1 = ok n) {csz : Nat} {l : List GItem}
    (hc : chunkBytes p ds = ok csz) (hl : ds.groupChunkSlices p ext sort = ok l) :
    ∃ s, l.foldlM (directStep p io F ds csz) ⟨none, dst⟩ = ok s ∧
      (directReadTo p io ds sort ext dst).2 = s.dst := by
  obtain ⟨vsz, h2, -⟩ := directReadTo_inv hok
  have h4 := directReadTo_fits h2 hok
  revert hok
  unfold directReadTo
  rw [hc, ok_bind, h2, ok_bind, show decide (vsz ≤ dst.length) = true by simpa using h4,
    ensure_true, ok_bind, hl, ok_bind, hf]
  simp only
  intro hok
  obtain ⟨_, h5, -⟩ := bind_eq_ok.1 hok
  exact ⟨_, loop_fst_ok h5, rfl⟩

/-- `Direct`'s loop is a loop of copies. -/
theorem direct_pure {p : Profile} {io : Io} {F : List Byte} {ds : Dataset} {csz : Nat}
    (hdet : AddrDet ds) {l : List GItem} (hm : ∀ g ∈ l, g.chunk ∈ ds.chunks) {dst : List Byte}
    {s : DirectSt} (h : l.foldlM (directStep p io F ds csz) ⟨none, dst⟩ = ok s) :
    l.foldlM (pureStep p (rawD p io F ds csz) ds.dsize) dst = ok s.dst := by
  obtain ⟨s1, s2, -⟩ := loop_sim (directStep p io F ds csz)
    (pureStep p (rawD p io F ds csz) ds.dsize) DirectSt.dst
    (LastInv ds (rawD p io F ds csz)) l
    (fun s g hg hinv => directStep_sim hdet (hm g hg) hinv)
    ⟨none, dst⟩ (by intro a v hv; simp at hv)
  have := loop_ok_iff.2 h
  rw [this] at s1 s2
  rw [← loop_ok_iff]
  exact Prod.ext s1.symm s2.symm

/-- Some of the copies of a read that would succeed: every byte is as before or as after the read. -/
theorem direct_old_or_new {p : Profile} {io : Io} {F : List Byte} {ds : Dataset}
    {sort : List GItem → List GItem} {ext : Extents} {dst : List Byte} (hdet : AddrDet ds)
    (hsort : ∀ l : List GItem, l.Perm (sort l)) (hW : dst.length < W) (hf : io.file = some F) {n : Nat}
    (hok : (directReadTo p io ds sort ext dst).1 = ok n) {csz : Nat} {l pre post : List GItem}
    (hc : chunkBytes p ds = ok csz) (hl : ds.groupChunkSlices p ext sort = ok l)
    (hpp : l = pre ++ post) {s : DirectSt}
    (hs : pre.foldlM (directStep p io F ds csz) ⟨none, dst⟩ = ok s) :
    s.dst.length = dst.length ∧ ∀ i : Nat, s.dst[i]? = dst[i]? ∨
      s.dst[i]? = (directReadTo p io ds sort ext dst).2[i]? := by
  have hm := groups_mem hsort hl
  -- the same copies in another order
  let sort' : List GItem → List GItem := fun m => (sort m).drop pre.length ++ (sort m).take pre.length
  have hsort' : ∀ m : List GItem, m.Perm (sort' m) := fun m =>
    (hsort m).trans ((List.take_append_drop pre.length (sort m)).symm ▸ List.perm_append_comm)
  have hl' : ds.groupChunkSlices p ext sort' = ok (post ++ pre) := by
    unfold Dataset.groupChunkSlices at hl ⊢
    obtain ⟨g, h1, h2⟩ := bind_eq_ok.1 hl
    rw [h1, ok_bind]
    have : sort g = pre ++ post := (Outcome.ok.inj h2).trans hpp
    simp [sort', this]
  obtain ⟨csz', vsz, items, h1, h2, h3, h4⟩ := direct_pre hok
  obtain rfl := Outcome.ok.inj (hc.symm.trans h1)
  obtain ⟨G, out, hd, -, -⟩ := agree_core hdet hf h1 h2 h3 h4 hW
  have hG := ((hd sort hsort).1 n).1 hok
  have e1 := (hd sort hsort).2 hG.2
  have e2 := (hd sort' hsort').2 hG.2
  obtain ⟨s', hs', hs2⟩ := direct_fold hf (n := vsz) (by rw [e2]) hc hl'
  have q1 := direct_pure hdet (fun g hg => hm g (by
    rw [hpp]; simp only [List.mem_append] at hg ⊢; exact hg.symm)) hs'
  have q2 := direct_pure hdet (fun g hg => hm g (by rw [hpp]; simp [hg])) hs
  rw [List.foldlM_append] at q1
  obtain ⟨e, q3, q4⟩ := bind_eq_ok.1 q1
  obtain ⟨ws, r1, r2⟩ := pureFold_writes q2
  obtain ⟨vs, t1, t2⟩ := pureFold_writes q3
  have ee : e = applyWrites dst vs := Outcome.ok.inj (q3.symm.trans (t2 dst rfl))
  have el : e.length = dst.length := by rw [ee]; exact applyWrites_length t1
  have o1 : s'.dst = applyWrites e ws := Outcome.ok.inj (q4.symm.trans (r2 e el))
  have o2 : s.dst = applyWrites dst ws := Outcome.ok.inj (q2.symm.trans (r2 dst rfl))
  have o3 : (directReadTo p io ds sort ext dst).2 = applyWrites e ws := by
    rw [e1, ← o1, ← hs2, e2]
  rw [o2, o3]
  refine ⟨applyWrites_length r1, fun i => ?_⟩
  rcases applyWrites_old_or_fixed r1 i with h | h
  · exact .inl h
  · exact .inr (h e el).symm

/-- C66 for the sequential direct read. The result is that of the undisturbed read, or an I/O error; in the
latter case, if the undisturbed read succeeds, every byte of the destination is as it was or as the
undisturbed read leaves it. -/
theorem C66_direct {p : Profile} {io : Io} {file : List Byte} {disk : Disk} {ds : Dataset}
    {sort : List GItem → List GItem} {ext : Extents} {dst : List Byte}
    (hwf : WF p ds) (hfit : EndsFit ds ext) (hkeep : KeepsNeeded ds ext file disk)
    (hdet : AddrDet ds) (hsort : ∀ l, SortedByAddr l (sort l)) (hW : dst.length < W) :
    let r := directReadToU p io disk ds sort ext dst
    let q := directReadTo p (withFile io file) ds sort ext dst
    r = q ∨ (r.1 = err .io ∧ ∀ n, q.1 = ok n → r.2.length = dst.length ∧
      ∀ i : Nat, r.2[i]? = dst[i]? ∨ r.2[i]? = q.2[i]?) := by
  intro r q
  rcases direct_unsteady (io := io) (dst := dst)
    (keeps_groups hwf hfit hkeep fun l => (hsort l).1) with h | ⟨h, csz, l, pre, post, s, h1, h2, h3, h4, h5⟩
  · exact .inl h
  · refine .inr ⟨h, fun n hq => ?_⟩
    have := direct_old_or_new hdet (fun l => (hsort l).1) hW (io := withFile io file) rfl hq h1 h2 h3 h4
    rw [← h5] at this
    exact this

/-! ## The parallel reader -/

theorem parGroup_file {p : Profile} {io : Io} {F f : List Byte} {ds : Dataset} {csz n : Nat}
    {g : GItem} {gs : List GItem}
    (h : RawOr f F g.chunk.addr g.chunk.size) :
    parGroup p { io with file := some f } ds csz n (g :: gs) =
      parGroup p (withFile io F) ds csz n (g :: gs) ∨
    parGroup p { io with file := some f } ds csz n (g :: gs) = (err .io, []) := by
  have := readChunk_or (p := p) (io := { io with file := some f }) (csz := csz) (dsz := ds.dsize)
    (gz := ds.gzip.isSome) (sh := ds.shuffle) h
  unfold parGroup
  simp only [withFile] at this ⊢
  rcases this with this | this
  · left; rw [this]
  · right; rw [this]

/-- The writes of some groups: those of all groups, without some. -/
theorem subset_writes {α : Type} {R S : List (Outcome Unit × List α)}
    (hlen : R.length = S.length) (h : ∀ (i : Nat) r s, R[i]? = some r → S[i]? = some s → r = s ∨ r = (err .io, [])) :
    ∃ rest, (R.flatMap Prod.snd ++ rest).Perm (S.flatMap Prod.snd) := by
  induction R generalizing S with
  | nil => cases S <;> simp at hlen ⊢
  | cons r R ih =>
    cases S with
    | nil => simp at hlen
    | cons s S =>
      obtain ⟨rest, hp⟩ := ih (S := S) (by simpa using hlen) fun i a b ha hb =>
        h (i + 1) a b (by simpa using ha) (by simpa using hb)
      rcases h 0 r s rfl rfl with e | e
      · subst e
        exact ⟨rest, by simpa using hp.append_left r.2⟩
      · subst e
        refine ⟨rest ++ s.2, ?_⟩
        simp only [List.flatMap_cons, List.nil_append, ← List.append_assoc]
        exact (hp.append_right _).trans List.perm_append_comm

theorem parPrelude_groups {p : Profile} {ds : Dataset} {sort : List GItem → List GItem} {ext : Extents}
    {n csz vsz : Nat} {groups : List (List GItem)} (h : parPrelude p ds sort ext n = ok (csz, vsz, groups)) :
    ∃ l, ds.groupChunkSlices p ext sort = ok l ∧ groups = chunkBy l := by
  unfold parPrelude at h
  obtain ⟨_, -, h⟩ := bind_eq_ok.1 h
  obtain ⟨_, -, h⟩ := bind_eq_ok.1 h
  obtain ⟨_, -, h⟩ := bind_eq_ok.1 h
  obtain ⟨l, h1, h⟩ := bind_eq_ok.1 h
  exact ⟨l, h1, ((Prod.mk.inj (Prod.mk.inj (Outcome.ok.inj h)).2).2).symm⟩

/-- Every group does the same as without disturbance, or nothing. -/
theorem par_groups {p : Profile} {io : Io} {file : List Byte} {disk : Disk} {ds : Dataset}
    {sort : List GItem → List GItem} {ext : Extents} {csz n : Nat} {l : List GItem}
    (hraw : ∀ l, ds.groupChunkSlices p ext sort = ok l → ∀ k f, disk k = some f → ∀ g ∈ l,
      RawOr f file g.chunk.addr g.chunk.size)
    (hl : ds.groupChunkSlices p ext sort = ok l) :
    ∀ (i : Nat) a b, ((chunkBy l).mapIdx fun i grp =>
          parGroup p { io with file := disk i } ds csz n grp)[i]? = some a →
        ((chunkBy l).map (parGroup p (withFile io file) ds csz n))[i]? = some b →
        a = b ∨ a = (err .io, []) := by
  have hs := hraw l hl
  intro i a b ha hb
  rw [List.getElem?_mapIdx] at ha
  rw [List.getElem?_map] at hb
  obtain ⟨grp, hgrp, rfl⟩ := Option.map_eq_some_iff.1 ha
  rw [hgrp] at hb
  obtain rfl := Option.some.inj hb
  obtain ⟨g, gs, rfl, -⟩ := chunkBy_group l grp (List.mem_of_getElem? hgrp)
  have hg : g ∈ l := by
    rw [← chunkBy_flatten l]; exact List.mem_flatten.2 ⟨_, List.mem_of_getElem? hgrp, by simp⟩
  cases hd : disk i with
  | none => exact .inr rfl
  | some f => exact parGroup_file (hs i f hd g hg)

theorem parGroup_inRange {p : Profile} {io : Io} {ds : Dataset} {csz n : Nat} {grp : List GItem} :
    ∀ w ∈ (parGroup p io ds csz n grp).2, InRange n w := by
  unfold parGroup
  split
  · simp
  · simp
  · split
    · rename_i chunk _
      refine loop_inv (parSegment p ds chunk n) (fun ws => ∀ w ∈ ws, InRange n w) _ ?_ [] (by simp)
      intro ws g _ ws' hws h
      unfold parSegment at h
      obtain ⟨start, -, h⟩ := bind_eq_ok.1 h
      obtain ⟨stop, -, h⟩ := bind_eq_ok.1 h
      obtain ⟨cur, -, h⟩ := bind_eq_ok.1 h
      obtain ⟨_, -, h⟩ := bind_eq_ok.1 h
      obtain ⟨_, -, h⟩ := bind_eq_ok.1 h
      obtain ⟨sz, hsz, h⟩ := bind_eq_ok.1 h
      split at h
      · simp at h
      · obtain ⟨src, hsrc, h⟩ := bind_eq_ok.1 h
        unfold sliceOf at hsrc
        split at hsrc
        · rename_i hab
          obtain rfl := Outcome.ok.inj hsrc
          rw [sub64_of_le hab.1] at hsz
          obtain rfl := Outcome.ok.inj hsz
          split at h
          · rename_i hfit
            obtain rfl := Outcome.ok.inj h
            intro w hw
            rcases List.mem_append.1 hw with hw | hw
            · exact hws w hw
            · obtain rfl := List.mem_singleton.1 hw
              show cur + (List.take (stop - start) (List.drop start chunk)).length ≤ n
              rw [List.length_take]
              omega
          · simp at h
        · simp at hsrc
    all_goals simp

theorem par_unsteady {p : Profile} {io : Io} {file : List Byte} {disk : Disk} {ds : Dataset}
    {sort : List GItem → List GItem} {ext : Extents} {dst : List Byte}
    (hraw : ∀ l, ds.groupChunkSlices p ext sort = ok l → ∀ k f, disk k = some f → ∀ g ∈ l,
      RawOr f file g.chunk.addr g.chunk.size)
    (res : Outcome Nat × List Byte)
    (h : DirectReadToParU p io disk ds sort ext dst res) :
    res.1 = err .io ∨ DirectReadToPar p (withFile io file) ds sort ext dst res := by
  cases h with
  | early e h hne => exact .inr (.early e h hne)
  | ran csz vsz groups r dst' h hrun =>
    obtain ⟨l, hl, rfl⟩ := parPrelude_groups h
    have hcase := par_groups (io := io) (csz := csz) (n := dst.length) hraw hl
    have hlen : ((chunkBy l).mapIdx fun i grp =>
          parGroup p { io with file := disk i } ds csz dst.length grp).length =
        ((chunkBy l).map (parGroup p (withFile io file) ds csz dst.length)).length := by simp
    generalize hR : ((chunkBy l).mapIdx fun i grp =>
      parGroup p { io with file := disk i } ds csz dst.length grp) = R at hrun hcase hlen
    cases hrun with
    | done ws hall hperm =>
      right
      refine .ran csz vsz _ _ _ h (.done ws ?_ ?_) <;>
      · have : (chunkBy l).map (parGroup p (withFile io file) ds csz dst.length) = R := by
          refine (List.ext_getElem? fun i => ?_)
          by_cases hi : i < R.length
          · have hi' : i < ((chunkBy l).map (parGroup p (withFile io file) ds csz dst.length)).length := by
              omega
            rw [List.getElem?_eq_getElem hi, List.getElem?_eq_getElem hi']
            rcases hcase i _ _ (List.getElem?_eq_getElem hi) (List.getElem?_eq_getElem hi') with e | e
            · rw [e]
            · have := hall _ (List.getElem_mem hi)
              rw [e] at this
              simp at this
          · rw [List.getElem?_eq_none (by omega), List.getElem?_eq_none (by omega)]
        rw [this]
        assumption
    | failed r' hr' hne ws rest hsub =>
      obtain ⟨i, hi, hri⟩ := List.mem_iff_getElem.1 hr'
      have hi' : i < ((chunkBy l).map (parGroup p (withFile io file) ds csz dst.length)).length := by
        omega
      rcases hcase i _ _ (List.getElem?_eq_getElem hi) (List.getElem?_eq_getElem hi') with e | e
      · right
        obtain ⟨more, hmore⟩ := subset_writes hlen hcase
        refine .ran csz vsz _ _ _ h (.failed r' ?_ hne ws (rest ++ more) ?_)
        · rw [← hri, e]; exact List.getElem_mem hi'
        · rw [← List.append_assoc]
          exact (hsub.append_right _).trans hmore
      · left
        rw [← hri, e]
        rfl
    | race i j hij ri rj hi hj a b ha hb ho =>
      right
      refine .ran csz vsz _ _ _ h ?_
      have hget : ∀ (k : Nat) x, R[k]? = some x → ∀ w ∈ x.2,
          ((chunkBy l).map (parGroup p (withFile io file) ds csz dst.length))[k]? = some x := by
        intro k x hx w hw
        have hk : k < R.length := (List.getElem?_eq_some_iff.1 hx).1
        have hk' : k < ((chunkBy l).map (parGroup p (withFile io file) ds csz dst.length)).length := by
          omega
        rcases hcase k _ _ hx (List.getElem?_eq_getElem hk') with e | e
        · rw [List.getElem?_eq_getElem hk', e]
        · rw [e] at hw; simp at hw
      exact .race i j hij ri rj (hget i ri hi a ha) (hget j rj hj b hb) a b ha hb ho

theorem par_unsteady_bytes {p : Profile} {io : Io} {file : List Byte} {disk : Disk} {ds : Dataset}
    {sort : List GItem → List GItem} {ext : Extents} {dst : List Byte}
    (hraw : ∀ l, ds.groupChunkSlices p ext sort = ok l → ∀ k f, disk k = some f → ∀ g ∈ l,
      RawOr f file g.chunk.addr g.chunk.size)
    (hdet : AddrDet ds) (hsort : ∀ l, SortedByAddr l (sort l)) (hW : dst.length < W)
    (res : Outcome Nat × List Byte) (h : DirectReadToParU p io disk ds sort ext dst res) {n : Nat}
    (hq : (directReadTo p (withFile io file) ds sort ext dst).1 = ok n) :
    res = directReadTo p (withFile io file) ds sort ext dst ∨
    (res.1 = err .io ∧ ∀ i : Nat, res.2[i]? = dst[i]? ∨
      res.2[i]? = (directReadTo p (withFile io file) ds sort ext dst).2[i]?) := by
  rcases par_unsteady (io := io) hraw res h with h1 | h1
  · right
    refine ⟨h1, ?_⟩
    cases h with
    | early e h hne => exact fun i => .inl rfl
    | ran csz vsz groups r dst' h hrun =>
      obtain ⟨l, hl, rfl⟩ := parPrelude_groups h
      have hcase := par_groups (io := io) (csz := csz) (n := dst.length) hraw hl
      have hlen : ((chunkBy l).mapIdx fun i grp =>
            parGroup p { io with file := disk i } ds csz dst.length grp).length =
          ((chunkBy l).map (parGroup p (withFile io file) ds csz dst.length)).length := by simp
      have hrange : ∀ w ∈ ((chunkBy l).mapIdx fun i grp =>
            parGroup p { io with file := disk i } ds csz dst.length grp).flatMap Prod.snd,
          InRange dst.length w := by
        intro w hw
        obtain ⟨x, hx, hw⟩ := List.mem_flatMap.1 hw
        obtain ⟨i, hi, rfl⟩ := List.mem_mapIdx.1 hx
        exact parGroup_inRange w hw
      have hrange' : ∀ w ∈ ((chunkBy l).map
            (parGroup p (withFile io file) ds csz dst.length)).flatMap Prod.snd,
          InRange dst.length w := by
        intro w hw
        obtain ⟨x, hx, hw⟩ := List.mem_flatMap.1 hw
        obtain ⟨grp, -, rfl⟩ := List.mem_map.1 hx
        exact parGroup_inRange w hw
      obtain ⟨more, hmore⟩ := subset_writes hlen hcase
      generalize hR : ((chunkBy l).mapIdx fun i grp =>
        parGroup p { io with file := disk i } ds csz dst.length grp) = R at *
      generalize hS : ((chunkBy l).map
            (parGroup p (withFile io file) ds csz dst.length)) = S at *
      -- without disturbance, all groups succeed
      have hagree : ∀ res', DirectReadToPar p (withFile io file) ds sort ext dst res' →
          res' = directReadTo p (withFile io file) ds sort ext dst := fun res' h' => by
        have := C13 hdet (io := withFile io file) rfl hsort hsort dst hW res' h'
        exact this.2 n ((this.1 n).2 hq)
      have hall : ∀ x ∈ S, x.1 = ok () := by
        intro x hx
        by_contra hne
        have := hagree _ (.ran csz vsz _ x.1 dst h (by
          rw [hS]; exact .failed x hx hne [] (S.flatMap Prod.snd) (List.Perm.refl _)))
        rw [← this] at hq
        obtain ⟨u, hu, -⟩ := bind_eq_ok.1 hq
        exact hne hu
      cases hrun with
      | done ws hall hperm => simp at h1
      | race => simp at h1
      | failed r' hr' hne ws rest hsub =>
        have hp : ((rest ++ more) ++ ws).Perm (S.flatMap Prod.snd) := by
          refine List.Perm.trans ?_ hmore
          refine List.Perm.trans ?_ (hsub.append_right more)
          rw [List.append_assoc ws]
          exact List.perm_append_comm
        have hd := hagree _ (.ran csz vsz _ _ _ h (by rw [hS]; exact .done _ hall hp))
        have hd' : (directReadTo p (withFile io file) ds sort ext dst).2 =
            applyWrites (applyWrites dst (rest ++ more)) ws := by
          rw [← hd, applyWrites_append]
        have hrr : ∀ w ∈ rest ++ more, InRange dst.length w := fun w hw =>
          hrange' w (hp.mem_iff.1 (by simp only [List.mem_append] at hw ⊢; exact .inl hw))
        intro i
        rcases applyWrites_old_or_fixed (ws := ws) (dst := dst) (fun w hw =>
          hrange w (hsub.mem_iff.1 (by simp [hw]))) i with h2 | h2
        · exact .inl h2
        · right
          rw [hd']
          exact (h2 _ (applyWrites_length hrr)).symm
  · left
    have := C13 hdet (io := withFile io file) rfl hsort hsort dst hW res h1
    exact this.2 n ((this.1 n).2 hq)

/-- C66 for the parallel read: a result that is not an I/O error is a possible result of the undisturbed
read. -/
theorem C66_par {p : Profile} {io : Io} {file : List Byte} {disk : Disk} {ds : Dataset}
    {sort : List GItem → List GItem} {ext : Extents} {dst : List Byte}
    (hwf : WF p ds) (hfit : EndsFit ds ext) (hkeep : KeepsNeeded ds ext file disk)
    (hsort : ∀ l, SortedByAddr l (sort l)) (res : Outcome Nat × List Byte)
    (h : DirectReadToParU p io disk ds sort ext dst res) :
    res.1 = err .io ∨ DirectReadToPar p (withFile io file) ds sort ext dst res :=
  par_unsteady (keeps_groups hwf hfit hkeep fun l => (hsort l).1) res h

/-- The parallel read with failures, when the undisturbed read succeeds: success with the same result, or
an I/O error, and then every byte of the destination is as it was or as the undisturbed read leaves it. In
particular there is no undefined behaviour. -/
theorem C66_par_bytes {p : Profile} {io : Io} {file : List Byte} {disk : Disk} {ds : Dataset}
    {sort : List GItem → List GItem} {ext : Extents} {dst : List Byte}
    (hwf : WF p ds) (hfit : EndsFit ds ext) (hkeep : KeepsNeeded ds ext file disk)
    (hdet : AddrDet ds) (hsort : ∀ l, SortedByAddr l (sort l)) (hW : dst.length < W)
    (res : Outcome Nat × List Byte) (h : DirectReadToParU p io disk ds sort ext dst res) {n : Nat}
    (hq : (directReadTo p (withFile io file) ds sort ext dst).1 = ok n) :
    res = directReadTo p (withFile io file) ds sort ext dst ∨
    (res.1 = err .io ∧ ∀ i : Nat, res.2[i]? = dst[i]? ∨
      res.2[i]? = (directReadTo p (withFile io file) ds sort ext dst).2[i]?) :=
  par_unsteady_bytes (keeps_groups hwf hfit hkeep fun l => (hsort l).1) hdet hsort hW res h hq

/-! ## The caching reader -/

theorem cacheStep_file {p : Profile} {io : Io} {F f : List Byte} {ds : Dataset} {csz : Nat}
    {s : CacheSt} {it : Item}
    (h : RawOr f F it.chunk.addr it.chunk.size) :
    cacheStep p io f ds csz s it = cacheStep p (withFile io F) F ds csz s it ∨
    cacheStep p io f ds csz s it = err .io := by
  have := readChunk_or (p := p) (io := io) (csz := csz) (dsz := ds.dsize) (gz := ds.gzip.isSome)
    (sh := ds.shuffle) h
  unfold cacheStep
  refine bind_or fun a => bind_or fun b => bind_or fun sz => bind_or fun _ => ?_
  cases s.cache.get it.chunk.addr with
  | none => exact or_bind this
  | some x => exact .inl rfl

theorem cacheStep_nofile {p : Profile} {io : Io} {F : List Byte} {ds : Dataset} {csz : Nat}
    {s : CacheSt} {it : Item} (h : cacheFetch s it = none) :
    cacheStep p io [] ds csz s it = cacheStep p (withFile io F) F ds csz s it := by
  unfold cacheFetch at h
  unfold cacheStep
  cases hl : s.cache.get it.chunk.addr with
  | none => rw [hl] at h; simp at h
  | some x => rfl

/-- The copies of a caching read fill the destination from the front. -/
theorem cacheStep_front {p : Profile} {io : Io} {F : List Byte} {ds : Dataset} {csz : Nat}
    {s s' : CacheSt} {it : Item} (h : cacheStep p io F ds csz s it = ok s') :
    ∃ src : List Byte, s.cur + src.length ≤ s.dst.length ∧ s'.cur = s.cur + src.length ∧
      s'.dst = blit s.dst s.cur src := by
  have key : ∀ {src dst' : List Byte} {sz : Nat}, copyTo s.dst s.cur (s.cur + sz) src = ok dst' →
      s.cur + src.length ≤ s.dst.length ∧ s.cur + sz = s.cur + src.length ∧
        dst' = blit s.dst s.cur src := by
    intro src dst' sz h
    unfold copyTo at h
    split at h
    · rename_i hc
      exact ⟨by omega, by omega, (Outcome.ok.inj h).symm⟩
    · simp at h
  unfold cacheStep at h
  obtain ⟨_, -, h⟩ := bind_eq_ok.1 h
  obtain ⟨_, -, h⟩ := bind_eq_ok.1 h
  obtain ⟨_, -, h⟩ := bind_eq_ok.1 h
  obtain ⟨_, -, h⟩ := bind_eq_ok.1 h
  split at h
  · obtain ⟨_, -, h⟩ := bind_eq_ok.1 h
    obtain ⟨_, -, h⟩ := bind_eq_ok.1 h
    obtain ⟨src, -, h⟩ := bind_eq_ok.1 h
    obtain ⟨d, hd, h⟩ := bind_eq_ok.1 h
    obtain rfl := Outcome.ok.inj h
    exact ⟨src, key hd⟩
  · obtain ⟨_, -, h⟩ := bind_eq_ok.1 h
    obtain ⟨_, -, h⟩ := bind_eq_ok.1 h
    obtain ⟨_, -, h⟩ := bind_eq_ok.1 h
    obtain ⟨src, -, h⟩ := bind_eq_ok.1 h
    obtain ⟨d, hd, h⟩ := bind_eq_ok.1 h
    obtain rfl := Outcome.ok.inj h
    exact ⟨src, key hd⟩

theorem cacheFold_front {p : Profile} {io : Io} {F : List Byte} {ds : Dataset} {csz : Nat}
    {its : List Item} {s s' : CacheSt} (hs : s.cur ≤ s.dst.length)
    (h : its.foldlM (cacheStep p io F ds csz) s = ok s') :
    s'.cur ≤ s'.dst.length ∧ s'.dst.length = s.dst.length ∧ s.cur ≤ s'.cur ∧
      s'.dst.take s.cur = s.dst.take s.cur ∧ s'.dst.drop s'.cur = s.dst.drop s'.cur := by
  induction its generalizing s with
  | nil =>
    obtain rfl := Outcome.ok.inj h
    exact ⟨hs, rfl, Nat.le_refl _, rfl, rfl⟩
  | cons it its ih =>
    rw [List.foldlM_cons] at h
    obtain ⟨s1, h1, h⟩ := bind_eq_ok.1 h
    obtain ⟨src, h2, h3, h4⟩ := cacheStep_front h1
    have hl : s1.dst.length = s.dst.length := by rw [h4]; exact blit_length h2
    obtain ⟨e1, e2, e3, e4, e5⟩ := ih (s := s1) (by omega) h
    have hmin : min s.cur s.dst.length = s.cur := by omega
    refine ⟨e1, e2.trans hl, by omega, ?_, ?_⟩
    · have := congrArg (List.take s.cur) e4
      rw [List.take_take, List.take_take, show min s.cur s1.cur = s.cur by omega] at this
      rw [this, h4]
      simp [blit, List.take_append, hmin]
    · rw [e5, h4]
      unfold blit
      have : s'.cur = (s.dst.take s.cur ++ src).length + (s'.cur - (s.cur + src.length)) := by
        simp only [List.length_append, List.length_take, hmin]; omega
      rw [this, List.drop_append, List.drop_eq_nil_of_le (by omega), List.nil_append,
        List.drop_drop]
      congr 1
      simp only [List.length_append, List.length_take, hmin]
      omega

theorem cached_unsteady {p : Profile} {io : Io} {F : List Byte} {disk : Disk} {ds : Dataset}
    {rd : CacheReader} {ext : Extents} {dst : List Byte}
    (hraw : ∀ t, ds.chunkSlices p ext = ok t → ∀ k f, disk k = some f → ∀ it ∈ t.items,
      RawOr f F it.chunk.addr it.chunk.size) :
    rd.readToU p io disk ds ext dst = rd.readTo p (withFile io F) F ds ext dst ∨
    ((rd.readToU p io disk ds ext dst).1 = err .io ∧ ∃ t pre post s,
      ds.chunkSlices p ext = ok t ∧ t.items = pre ++ post ∧
      pre.foldlM (cacheStep p (withFile io F) F ds rd.chunkSz) ⟨rd.cache, 0, dst⟩ = ok s ∧
      (rd.readToU p io disk ds ext dst).2 = (s.dst, { rd with cache := s.cache })) := by
  unfold CacheReader.readToU CacheReader.readTo
  cases hv : reqBytes p ds ext with
  | ok vsz =>
    cases he : ensure (decide (vsz ≤ dst.length)) Err.capacity with
    | ok u =>
      cases hg : ds.chunkSlices p ext with
      | ok t =>
        have := unsteady_loop (step := fun f => cacheStep p io f ds rd.chunkSz) (need := cacheFetch)
          (disk := disk) (g := cacheStep p (withFile io F) F ds rd.chunkSz) (bs := t.items)
          (fun s g _ h => cacheStep_nofile h)
          (fun k f hk s g hgl => cacheStep_file (hraw t hg k f hk g hgl)) ⟨rd.cache, 0, dst⟩ 0
        simp only [ok_bind, he, withFile] at this ⊢
        rcases this with ⟨h1, h2⟩ | ⟨h1, pre, post, h2, h3⟩
        · left; rw [h1, h2]
        · right
          exact ⟨by rw [h1]; rfl, t, pre, post, _, rfl, h2, h3, rfl⟩
      | _ => left; simp [he]
    | _ => left; simp [he]
  | _ => left; simp

theorem cached_unsteady_front {p : Profile} {io : Io} {file : List Byte} {disk : Disk} {ds : Dataset}
    {rd : CacheReader} {ext : Extents} {dst : List Byte}
    (hraw : ∀ t, ds.chunkSlices p ext = ok t → ∀ k f, disk k = some f → ∀ it ∈ t.items,
      RawOr f file it.chunk.addr it.chunk.size) :
    let r := rd.readToU p io disk ds ext dst
    let q := rd.readTo p (withFile io file) file ds ext dst
    r = q ∨ (r.1 = err .io ∧ ∀ n, q.1 = ok n → ∃ m, m ≤ dst.length ∧
      r.2.1 = q.2.1.take m ++ dst.drop m) := by
  intro r q
  rcases cached_unsteady (io := io) (rd := rd) (dst := dst) (F := file) (disk := disk) (p := p) (ds := ds)
    (ext := ext) hraw with
    h | ⟨h, t, pre, post, s, h1, h2, h3, h4⟩
  · exact .inl h
  · refine .inr ⟨h, fun n hq => ?_⟩
    have hfold : ∃ s', t.items.foldlM (cacheStep p (withFile io file) file ds rd.chunkSz)
        ⟨rd.cache, 0, dst⟩ = ok s' ∧ q.2.1 = s'.dst := by
      change (rd.readTo p (withFile io file) file ds ext dst).1 = ok n at hq
      show ∃ s' : CacheSt, _ ∧ (rd.readTo p (withFile io file) file ds ext dst).2.1 = s'.dst
      revert hq
      unfold CacheReader.readTo
      cases hv : reqBytes p ds ext with
      | ok vsz =>
        cases he : ensure (decide (vsz ≤ dst.length)) Err.capacity with
        | ok u =>
          simp only [ok_bind, he, h1]
          intro hq
          obtain ⟨_, h5, -⟩ := bind_eq_ok.1 hq
          exact ⟨_, loop_fst_ok h5, rfl⟩
        | _ => simp [he]
      | _ => simp
    obtain ⟨s', hs', hq'⟩ := hfold
    rw [h2, List.foldlM_append] at hs'
    obtain ⟨s1, h5, h6⟩ := bind_eq_ok.1 hs'
    obtain rfl := Outcome.ok.inj (h3.symm.trans h5)
    obtain ⟨a1, a2, a3, a4, a5⟩ := cacheFold_front (s := ⟨rd.cache, 0, dst⟩) (Nat.zero_le _) h3
    obtain ⟨b1, b2, b3, b4, b5⟩ := cacheFold_front (s := s) a1 h6
    simp only at a2 a5
    refine ⟨s.cur, by omega, ?_⟩
    have : r.2.1 = s.dst := congrArg Prod.fst h4
    rw [this, hq', b4, ← a5, List.take_append_drop]

/-- C66 for the caching reader, from any state of the reader. After an I/O error, if the undisturbed read
succeeds, the destination has been filled from the front up to some point. -/
theorem C66_cached {p : Profile} {io : Io} {file : List Byte} {disk : Disk} {ds : Dataset}
    {rd : CacheReader} {ext : Extents} {dst : List Byte}
    (hwf : WF p ds) (hfit : EndsFit ds ext) (hkeep : KeepsNeeded ds ext file disk) :
    let r := rd.readToU p io disk ds ext dst
    let q := rd.readTo p (withFile io file) file ds ext dst
    r = q ∨ (r.1 = err .io ∧ ∀ n, q.1 = ok n → ∃ m, m ≤ dst.length ∧
      r.2.1 = q.2.1.take m ++ dst.drop m) :=
  cached_unsteady_front (keeps_items hwf hfit hkeep)

/-! ## Streams -/

theorem streamStep_file {p : Profile} {rt : Rt} {io : Io} {F f : List Byte} {ds : Dataset} {csz : Nat}
    {factor : Outcome Nat} {conv : List Byte → Outcome (List Byte)} {s : StreamSt} {b : BSlice}
    (h : RawOr f F b.addr b.size) :
    streamStep p rt io f ds csz factor conv s b =
      streamStep p rt (withFile io F) F ds csz factor conv s b ∨
    streamStep p rt io f ds csz factor conv s b = err .io := by
  have : readChunkTokio p rt io f b.addr b.size csz ds.dsize ds.gzip.isSome ds.shuffle =
        readChunkTokio p rt (withFile io F) F b.addr b.size csz ds.dsize ds.gzip.isSome ds.shuffle ∨
      readChunkTokio p rt io f b.addr b.size csz ds.dsize ds.gzip.isSome ds.shuffle = err .io :=
    bind_or fun _ => or_bind h
  unfold streamStep
  refine bind_or fun _ => bind_or fun a => bind_or fun b => bind_or fun _ => ?_
  cases s.cache.get _ with
  | none => exact or_bind this
  | some x => exact .inl rfl

theorem streamStep_nofile {p : Profile} {rt : Rt} {io : Io} {F : List Byte} {ds : Dataset} {csz : Nat}
    {factor : Outcome Nat} {conv : List Byte → Outcome (List Byte)} {s : StreamSt} {b : BSlice}
    (h : streamFetch s b = none) :
    streamStep p rt io [] ds csz factor conv s b =
      streamStep p rt (withFile io F) F ds csz factor conv s b := by
  unfold streamFetch at h
  unfold streamStep
  cases hl : s.cache.get b.addr with
  | none => rw [hl] at h; simp at h
  | some x => rfl

theorem streamStep_out {p : Profile} {rt : Rt} {io : Io} {F : List Byte} {ds : Dataset} {csz : Nat}
    {factor : Outcome Nat} {conv : List Byte → Outcome (List Byte)} {s s' : StreamSt} {b : BSlice}
    (h : streamStep p rt io F ds csz factor conv s b = ok s') : s.out <+: s'.out := by
  unfold streamStep at h
  obtain ⟨_, -, h⟩ := bind_eq_ok.1 h
  obtain ⟨_, -, h⟩ := bind_eq_ok.1 h
  obtain ⟨_, -, h⟩ := bind_eq_ok.1 h
  obtain ⟨_, -, h⟩ := bind_eq_ok.1 h
  split at h
  · obtain ⟨_, -, h⟩ := bind_eq_ok.1 h
    obtain ⟨_, -, h⟩ := bind_eq_ok.1 h
    obtain ⟨src, -, h⟩ := bind_eq_ok.1 h
    obtain rfl := Outcome.ok.inj h
    exact List.prefix_append _ _
  · obtain ⟨_, -, h⟩ := bind_eq_ok.1 h
    obtain ⟨_, -, h⟩ := bind_eq_ok.1 h
    obtain ⟨_, -, h⟩ := bind_eq_ok.1 h
    obtain ⟨_, -, h⟩ := bind_eq_ok.1 h
    obtain ⟨src, -, h⟩ := bind_eq_ok.1 h
    obtain rfl := Outcome.ok.inj h
    exact List.prefix_append _ _

/-- What a loop has collected after some iterations is the beginning of what it collects. -/
theorem loop_prefix {σ β α : Type} {f : σ → β → Outcome σ} {out : σ → List α}
    (hstep : ∀ s b s', f s b = ok s' → out s <+: out s') {pre post : List β} {s s' : σ}
    (h : pre.foldlM f s = ok s') : out s' <+: out (loop f s (pre ++ post)).2 := by
  induction pre generalizing s with
  | nil =>
    obtain rfl := Outcome.ok.inj h
    exact loop_inv f (fun t => out s <+: out t) post
      (fun t b _ t' ht hf => ht.trans (hstep t b t' hf)) s (List.prefix_refl _)
  | cons b pre ih =>
    rw [List.foldlM_cons] at h
    obtain ⟨s1, h1, h⟩ := bind_eq_ok.1 h
    simp only [List.cons_append, loop, h1]
    exact ih h

theorem streamRun_unsteady {p : Profile} {rt : Rt} {io : Io} {F : List Byte} {disk : Disk} {ds : Dataset}
    {csz cap : Nat} {factor : Outcome Nat} {conv : List Byte → Outcome (List Byte)} {l : List BSlice}
    (hraw : ∀ k f, disk k = some f → ∀ b ∈ l, RawOr f F b.addr b.size) :
    let t := streamRunU p rt io disk ds csz cap factor conv l
    let q := streamRun p rt (withFile io F) ds csz cap factor conv l
    t = q ∨ (t.ending = err .io ∧ t.items <+: q.items) := by
  intro t q
  show streamRunU p rt io disk ds csz cap factor conv l =
      streamRun p rt (withFile io F) ds csz cap factor conv l ∨
    ((streamRunU p rt io disk ds csz cap factor conv l).ending = err .io ∧
      (streamRunU p rt io disk ds csz cap factor conv l).items <+:
        (streamRun p rt (withFile io F) ds csz cap factor conv l).items)
  unfold streamRunU streamRun
  cases hd : disk 0 with
  | none => exact .inr ⟨rfl, List.nil_prefix⟩
  | some f0 =>
    rcases unsteady_loop (step := fun f => streamStep p rt io f ds csz factor conv)
      (need := streamFetch) (disk := disk) (g := streamStep p rt (withFile io F) F ds csz factor conv)
      (bs := l) (fun s g _ h => streamStep_nofile h)
      (fun k f hk s g hgl => streamStep_file (hraw k f hk g hgl)) ⟨⟨cap, []⟩, []⟩ 1 with
      ⟨h1, h2⟩ | ⟨h1, pre, post, h2, h3⟩
    · left
      simp only [withFile] at h1 h2 ⊢
      rw [h1, h2]
    · right
      refine ⟨h1, ?_⟩
      have := loop_prefix (out := StreamSt.out) (fun s b s' h => streamStep_out h) (post := post) h3
      rw [← h2] at this
      exact this

theorem stream_unsteady {p : Profile} {rt : Rt} {host : Host} {io : Io} {file : List Byte} {disk : Disk}
    {ds : Dataset} {ext : Extents}
    (hit' : ∀ t, ds.chunkSlices p ext = ok t → ∀ k f, disk k = some f → ∀ it ∈ t.items,
      RawOr f file it.chunk.addr it.chunk.size) :
    (streamBytesU p rt io disk ds ext = streamBytes p rt (withFile io file) ds ext ∨
      ∃ t q, streamBytesU p rt io disk ds ext = ok t ∧ streamBytes p rt (withFile io file) ds ext = ok q ∧
        t.ending = err .io ∧ t.items <+: q.items) ∧
    (streamXdrU p rt host io disk ds ext = streamXdr p rt host (withFile io file) ds ext ∨
      ∃ t q, streamXdrU p rt host io disk ds ext = ok t ∧
        streamXdr p rt host (withFile io file) ds ext = ok q ∧
        t.ending = err .io ∧ t.items <+: q.items) := by
  unfold streamBytes streamXdr streamBytesU streamXdrU
  cases chunkBytes p ds with
  | ok csz =>
    cases h : streamSlices p ds ext with
    | ok l =>
      cases hlc : lruCap csz with
      | ok cap =>
        have hraw : ∀ k f, disk k = some f → ∀ b ∈ l,
            RawOr f file b.addr b.size := by
          intro k f hk b hb
          unfold streamSlices at h
          obtain ⟨t, h1, h⟩ := bind_eq_ok.1 h
          obtain ⟨l', h2, h⟩ := bind_eq_ok.1 h
          obtain ⟨_, -, h⟩ := bind_eq_ok.1 h
          obtain rfl := Outcome.ok.inj h
          obtain ⟨it, hit, e1, e2⟩ := mapM_bslice h2 b hb
          rw [e1, e2]
          exact hit' _ h1 k f hk it hit
        simp only [ok_bind, hlc]
        constructor
        · rcases streamRun_unsteady (p := p) (rt := rt) (io := io) (F := file) (ds := ds) (csz := csz)
            (cap := cap) (factor := ok 1) (conv := ok) hraw with h | h
          · left; rw [h]
          · exact .inr ⟨_, _, rfl, rfl, h⟩
        · rcases streamRun_unsteady (p := p) (rt := rt) (io := io) (F := file) (ds := ds) (csz := csz)
            (cap := cap) (factor := xdrFactor ds.dtype)
            (conv := fun c => xdr host c ds.dtype ds.order) hraw with h | h
          · left; rw [h]
          · exact .inr ⟨_, _, rfl, rfl, h⟩
      | _ => simp [hlc]
    | _ => simp
  | _ => simp

/-- C66 for the streams: a disturbed stream yields the same items and ends in the same way, or it yields
some of the first items and then an I/O error. -/
theorem C66_stream {p : Profile} {rt : Rt} {host : Host} {io : Io} {file : List Byte} {disk : Disk}
    {ds : Dataset} {ext : Extents}
    (hwf : WF p ds) (hfit : EndsFit ds ext) (hkeep : KeepsNeeded ds ext file disk) :
    (streamBytesU p rt io disk ds ext = streamBytes p rt (withFile io file) ds ext ∨
      ∃ t q, streamBytesU p rt io disk ds ext = ok t ∧ streamBytes p rt (withFile io file) ds ext = ok q ∧
        t.ending = err .io ∧ t.items <+: q.items) ∧
    (streamXdrU p rt host io disk ds ext = streamXdr p rt host (withFile io file) ds ext ∨
      ∃ t q, streamXdrU p rt host io disk ds ext = ok t ∧
        streamXdr p rt host (withFile io file) ds ext = ok q ∧
        t.ending = err .io ∧ t.items <+: q.items) :=
  stream_unsteady (keeps_items hwf hfit hkeep)

/-! ## C67 -/

/-- The reader after a history of disturbed reads: each meets its own disk. -/
def afterReadsU (p : Profile) (io : Io) (ds : Dataset) (rd : CacheReader) :
    List (Disk × Extents × List Byte) → CacheReader
  | [] => rd
  | (k, e, d) :: h => afterReadsU p io ds (rd.readToU p io k ds e d).2.2 h

theorem keepsChunks_raw {p : Profile} {ds : Dataset} {ext : Extents} {F : List Byte} {disk : Disk}
    (hkeep : KeepsChunks ds F disk) : ∀ t, ds.chunkSlices p ext = ok t → ∀ k f, disk k = some f →
      ∀ it ∈ t.items, RawOr f F it.chunk.addr it.chunk.size :=
  fun _ ht k f hk it hit => (hkeep k f hk _ (chunkSlices_mem ht it hit)).raw

theorem readToU_inv {p : Profile} {io : Io} {F : List Byte} {disk : Disk} {ds : Dataset} {cap : Nat}
    {rd : CacheReader} {ext : Extents} {dst : List Byte} (hdet : AddrDet ds)
    (hkeep : KeepsChunks ds F disk)
    (hs : CacheInv ds (rawD p (withFile io F) F ds rd.chunkSz) cap rd.cache) :
    (rd.readToU p io disk ds ext dst).2.2.chunkSz = rd.chunkSz ∧
    CacheInv ds (rawD p (withFile io F) F ds rd.chunkSz) cap (rd.readToU p io disk ds ext dst).2.2.cache := by
  rcases cached_unsteady (io := io) (rd := rd) (dst := dst) (keepsChunks_raw (p := p) (ext := ext) hkeep) with
    h | ⟨-, t, pre, post, s, h1, h2, h3, h4⟩
  · rw [h]
    exact (readTo_sim hdet rd hs ext dst).2.2
  · rw [h4]
    refine ⟨rfl, ?_⟩
    have := loop_sim (cacheStep p (withFile io F) F ds rd.chunkSz)
      (nocacheStep p (rawD p (withFile io F) F ds rd.chunkSz) ds.dsize) (fun s => (s.cur, s.dst))
      (fun s => CacheInv ds (rawD p (withFile io F) F ds rd.chunkSz) cap s.cache) pre
      (fun s it hit hinv => cacheStep_sim hdet (chunkSlices_mem h1 it (by rw [h2]; simp [hit])) hinv)
      ⟨rd.cache, 0, dst⟩ hs
    rw [loop_ok_iff.2 h3] at this
    exact this.2.2

theorem afterReadsU_inv {p : Profile} {io : Io} {F : List Byte} {ds : Dataset} {cap : Nat}
    (hdet : AddrDet ds) (hist : List (Disk × Extents × List Byte))
    (hkeep : ∀ h ∈ hist, KeepsChunks ds F h.1) (rd : CacheReader)
    (hs : CacheInv ds (rawD p (withFile io F) F ds rd.chunkSz) cap rd.cache) :
    (afterReadsU p io ds rd hist).chunkSz = rd.chunkSz ∧
    CacheInv ds (rawD p (withFile io F) F ds rd.chunkSz) cap (afterReadsU p io ds rd hist).cache := by
  induction hist generalizing rd with
  | nil => exact ⟨rfl, hs⟩
  | cons x hist ih =>
    obtain ⟨k, e, d⟩ := x
    obtain ⟨h3, h4⟩ := readToU_inv (ext := e) (dst := d) hdet (hkeep (k, e, d) (by simp)) hs
    have := ih (fun h hh => hkeep h (by simp [hh])) (rd.readToU p io k ds e d).2.2 (by rw [h3]; exact h4)
    rw [h3] at this
    exact this

/-- C67: whatever reads a caching reader has done before, with whatever failures and whatever writes to
other parts of the file meanwhile, a read that is not disturbed has the outcome and the destination that
it has with a new reader; and one that is disturbed has those too, or fails with an I/O error. -/
theorem C67 {p : Profile} {io : Io} {file : List Byte} {ds : Dataset} {rd : CacheReader}
    (hdet : AddrDet ds) (hrd : CacheReader.withDataset p ds = ok rd)
    (hist : List (Disk × Extents × List Byte)) (hkeep : ∀ h ∈ hist, KeepsChunks ds file h.1)
    (ext : Extents) (dst : List Byte) :
    let used := afterReadsU p io ds rd hist
    let fresh := rd.readTo p (withFile io file) file ds ext dst
    (let r := used.readTo p (withFile io file) file ds ext dst
     r.1 = fresh.1 ∧ r.2.1 = fresh.2.1) ∧
    ∀ disk, KeepsChunks ds file disk → let r := used.readToU p io disk ds ext dst
      (r.1 = fresh.1 ∧ r.2.1 = fresh.2.1) ∨ r.1 = err .io := by
  intro used fresh
  obtain ⟨-, hc, -, -, hinv⟩ := withDataset_inv (io := withFile io file) (file := file) hrd
  obtain ⟨h1, h2⟩ := afterReadsU_inv hdet hist hkeep rd hinv
  obtain ⟨f1, f2, -⟩ := readTo_sim hdet rd hinv ext dst
  obtain ⟨u1, u2, -⟩ := readTo_sim (cap := max (33554432 / rd.chunkSz) 1) hdet used
    (by rw [h1]; exact h2) ext dst
  rw [h1] at u1 u2
  have hst : (used.readTo p (withFile io file) file ds ext dst).1 = fresh.1 ∧
      (used.readTo p (withFile io file) file ds ext dst).2.1 = fresh.2.1 :=
    ⟨u1.trans f1.symm, u2.trans f2.symm⟩
  refine ⟨hst, fun disk hk => ?_⟩
  rcases cached_unsteady (io := io) (rd := used) (dst := dst)
    (keepsChunks_raw (p := p) (ext := ext) hk) with h | ⟨h, -⟩
  · left; rw [h]; exact hst
  · exact .inr h

/-! ## An instance: the end of the file is overwritten while it is read, and the second read fails -/

/-- The first read finds the file as it was, the second fails, and later ones find the file damaged where
the top rows are not. -/
def flaky : Disk
  | 0 => some Demo.file
  | 1 => none
  | _ => some damagedElsewhere

theorem flaky_keeps : KeepsNeeded Demo.ds topRows Demo.file flaky := by
  intro k f h
  match k with
  | 0 => obtain rfl := Option.some.inj h; exact fun _ _ _ _ _ => .inl rfl
  | 1 => simp [flaky] at h
  | k + 2 => obtain rfl := Option.some.inj h; exact fun s c hs x hx => .inl (topRows_same s c hs x hx)

example (p : Profile) (dst : List Byte) (hW : dst.length < W) :
    let r := directReadToU p Demo.io flaky Demo.ds sortByAddr topRows dst
    let q := directReadTo p (withFile Demo.io Demo.file) Demo.ds sortByAddr topRows dst
    r = q ∨ (r.1 = err .io ∧ ∀ n, q.1 = ok n → r.2.length = dst.length ∧
      ∀ i : Nat, r.2[i]? = dst[i]? ∨ r.2[i]? = q.2[i]?) :=
  C66_direct (Demo.wf p) topRows_fit flaky_keeps Demo.addr sortByAddr_ok hW

example (p : Profile) (dst : List Byte) (res : Outcome Nat × List Byte)
    (h : DirectReadToParU p Demo.io flaky Demo.ds sortByAddr topRows dst res) :
    res.1 = err .io ∨ DirectReadToPar p (withFile Demo.io Demo.file) Demo.ds sortByAddr topRows dst res :=
  C66_par (Demo.wf p) topRows_fit flaky_keeps sortByAddr_ok res h

/-- The read stops at the failing operation with a part of the destination filled; the same call on the
same reader then succeeds, on a disk where the rest of the file is damaged. -/
example : (CacheReader.withDataset .debug Demo.ds >>= fun rd =>
      let r := rd.readToU .debug Demo.io flaky Demo.ds topRows (List.replicate 16 0)
      let r' := r.2.2.readToU .debug Demo.io (fun _ => some damagedElsewhere) Demo.ds topRows
        (List.replicate 16 0)
      let q := rd.readTo .debug (withFile Demo.io Demo.file) Demo.file Demo.ds topRows
        (List.replicate 16 0)
      ok (decide (r.1 = err .io), decide (r.2.1 = List.replicate 16 0), decide (r.2.1 = q.2.1),
        decide (r'.1 = ok 16), decide (r'.2.1 = q.2.1))) =
    ok (true, false, false, true, true) := by
  decide +kernel

/-- A disk whose chunks all stay as they are, while the file grows and operations fail. -/
def growing : Disk := fun k => if k % 3 = 1 then none else some (Demo.file ++ List.replicate k 7)

theorem growing_keeps : KeepsChunks Demo.ds Demo.file growing := by
  intro k f h c hc
  unfold growing at h
  split at h
  · simp at h
  · obtain rfl := Option.some.inj h
    have : c.addr + c.size ≤ Demo.file.length := by
      simp only [Demo.ds, List.mem_cons, List.not_mem_nil, or_false] at hc
      rcases hc with rfl | rfl | rfl | rfl <;> decide
    left
    rw [List.drop_append_of_le_length (by omega), List.take_append_of_le_length (by simp; omega)]

example (p : Profile) (rd : CacheReader) (hrd : CacheReader.withDataset p Demo.ds = ok rd)
    (dst : List Byte) :
    let used := afterReadsU p Demo.io Demo.ds rd
      [(growing, .all, List.replicate 24 0), (growing, topRows, [])]
    let fresh := rd.readTo p (withFile Demo.io Demo.file) Demo.file Demo.ds .all dst
    (used.readTo p (withFile Demo.io Demo.file) Demo.file Demo.ds .all dst).1 = fresh.1 :=
  ((C67 Demo.addr hrd [(growing, .all, List.replicate 24 0), (growing, topRows, [])]
    (by simp [growing_keeps]) .all dst).1).1

end Hidefix.Props
