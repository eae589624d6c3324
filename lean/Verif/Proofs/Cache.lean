import Verif.Proofs.Sliced
import Verif.Spec.Store

/-!
# The chunk cache
-/

set_option autoImplicit false

namespace Hidefix.Proofs
open Hidefix Hidefix.Spec Outcome

/-- A chunk, read and decoded. -/
def rawD (p : Profile) (io : Io) (file : List Byte) (ds : Dataset) (chunkSz : Nat) (c : Chunk) :
    Outcome (List Byte) :=
  readChunk p io file c.addr c.size chunkSz ds.dsize ds.gzip.isSome ds.shuffle

/-- `D` only depends on where a chunk is. -/
def Local (D : Chunk → Outcome (List Byte)) : Prop :=
  ∀ c c' : Chunk, c.addr = c'.addr → c.size = c'.size → D c = D c'

theorem rawD_local (p : Profile) (io : Io) (file : List Byte) (ds : Dataset) (chunkSz : Nat) :
    Local (rawD p io file ds chunkSz) := by
  intro c c' h1 h2; unfold rawD; rw [h1, h2]

/-- Invariant of the cache: bounded, distinct keys, every entry is what decoding the chunk at that
address gives. -/
structure CacheInv (ds : Dataset) (D : Chunk → Outcome (List Byte)) (cap : Nat) (c : Lru) : Prop where
  cap_eq : c.cap = cap
  cap_pos : 0 < cap
  bounded : c.entries.length ≤ cap
  distinct : (c.entries.map Prod.fst).Nodup
  entry : ∀ e ∈ c.entries, ∃ ch ∈ ds.chunks, ch.addr = e.1 ∧ D ch = ok e.2

theorem CacheInv.get {ds : Dataset} {D : Chunk → Outcome (List Byte)} {cap : Nat} {c c' : Lru}
    {k : Nat} {v : List Byte} (h : CacheInv ds D cap c) (hg : c.get k = some (v, c')) :
    CacheInv ds D cap c' ∧ ∃ ch ∈ ds.chunks, ch.addr = k ∧ D ch = ok v := by
  unfold Lru.get at hg
  split at hg
  · rename_i e he
    obtain ⟨rfl, rfl⟩ := Prod.mk.inj (Option.some.inj hg)
    have hek : e.1 = k := by simpa using List.find?_some he
    have hmem : e ∈ c.entries := List.mem_of_find?_eq_some he
    refine ⟨⟨h.cap_eq, h.cap_pos, ?_, ?_, ?_⟩, ?_⟩
    · have : (c.entries.filter fun e => e.1 != k).length < c.entries.length := by
        rw [List.length_filter_lt_length_iff_exists]
        exact ⟨e, hmem, by simp [hek]⟩
      have := h.bounded
      simp only [List.length_cons]; omega
    · simp only [List.map_cons, List.nodup_cons, List.mem_map, List.mem_filter]
      refine ⟨?_, ?_⟩
      · rintro ⟨x, ⟨-, hx⟩, hxe⟩
        simp [hxe, hek] at hx
      · exact h.distinct.sublist (List.filter_sublist.map _)
    · intro x hx
      simp only [List.mem_cons, List.mem_filter] at hx
      rcases hx with rfl | hx
      · exact h.entry _ hmem
      · exact h.entry _ hx.1
    · obtain ⟨ch, h1, h2, h3⟩ := h.entry e hmem
      exact ⟨ch, h1, by rw [h2, hek], h3⟩
  · simp at hg

theorem CacheInv.put {ds : Dataset} {D : Chunk → Outcome (List Byte)} {cap : Nat} {c : Lru}
    {ch : Chunk} {v : List Byte} (h : CacheInv ds D cap c) (hm : ch ∈ ds.chunks)
    (hD : D ch = ok v) : CacheInv ds D cap (c.put ch.addr v) := by
  have hsub := List.take_sublist c.cap
    ((ch.addr, v) :: c.entries.filter (fun e => e.1 != ch.addr))
  refine ⟨h.cap_eq, h.cap_pos, ?_, ?_, ?_⟩
  · simp only [Lru.put, List.length_take, h.cap_eq]; omega
  · refine List.Nodup.sublist (hsub.map _) ?_
    simp only [List.map_cons, List.nodup_cons, List.mem_map, List.mem_filter]
    refine ⟨?_, h.distinct.sublist (List.filter_sublist.map _)⟩
    rintro ⟨x, ⟨-, hx⟩, hxe⟩
    simp [hxe] at hx
  · intro e he
    have he := hsub.subset he
    simp only [List.mem_cons, List.mem_filter] at he
    rcases he with rfl | he
    · exact ⟨ch, hm, rfl, hD⟩
    · exact h.entry _ he.1

/-- A step of the cached loop without a cache. -/
def nocacheStep (p : Profile) (D : Chunk → Outcome (List Byte)) (dsz : Nat) (s : Nat × List Byte)
    (it : Item) : Outcome (Nat × List Byte) := do
  let start ← mul64 p it.start dsz
  let stop ← mul64 p it.stop dsz
  debugAssert p (decide (start ≤ stop))
  let sz ← sub64 p stop start
  let cache ← D it.chunk
  debugAssert p (decide (start ≤ cache.length))
  debugAssert p (decide (stop ≤ cache.length))
  let src ← sliceOf cache start stop
  let dst ← copyTo s.2 s.1 (s.1 + sz) src
  ok (s.1 + sz, dst)

theorem cacheStep_sim {p : Profile} {io : Io} {file : List Byte} {ds : Dataset} {chunkSz cap : Nat}
    (hdet : AddrDet ds) {s : CacheSt} {it : Item} (hit : it.chunk ∈ ds.chunks)
    (hs : CacheInv ds (rawD p io file ds chunkSz) cap s.cache) :
    (cacheStep p io file ds chunkSz s it >>= fun s' => ok (s'.cur, s'.dst)) =
      nocacheStep p (rawD p io file ds chunkSz) ds.dsize (s.cur, s.dst) it ∧
    ∀ s', cacheStep p io file ds chunkSz s it = ok s' →
      CacheInv ds (rawD p io file ds chunkSz) cap s'.cache := by
  unfold cacheStep nocacheStep
  cases mul64 p it.start ds.dsize with
  | ok start =>
    simp only [ok_bind]
    cases mul64 p it.stop ds.dsize with
    | ok stop =>
      simp only [ok_bind]
      cases debugAssert p (decide (start ≤ stop)) with
      | ok u =>
        simp only [ok_bind]
        cases sub64 p stop start with
        | ok sz =>
          simp only [ok_bind]
          cases hg : s.cache.get it.chunk.addr with
          | some vl =>
            obtain ⟨v, lru⟩ := vl
            obtain ⟨hinv, ch, hch, haddr, hD⟩ := hs.get hg
            have hD' : rawD p io file ds chunkSz it.chunk = ok v := by
              rw [← hD]
              exact rawD_local _ _ _ _ _ _ _ haddr.symm (hdet _ hit _ hch haddr.symm)
            simp only [hD', ok_bind]
            constructor
            · simp only [Outcome.bind_assoc, ok_bind]
            · intro s' h
              obtain ⟨_, -, h⟩ := bind_eq_ok.1 h
              obtain ⟨_, -, h⟩ := bind_eq_ok.1 h
              obtain ⟨_, -, h⟩ := bind_eq_ok.1 h
              obtain ⟨_, -, h⟩ := bind_eq_ok.1 h
              obtain rfl := Outcome.ok.inj h
              exact hinv
          | none =>
            simp only
            constructor
            · simp only [Outcome.bind_assoc, ok_bind]; rfl
            · intro s' h
              obtain ⟨v, hv, h⟩ := bind_eq_ok.1 h
              obtain ⟨_, -, h⟩ := bind_eq_ok.1 h
              obtain ⟨_, -, h⟩ := bind_eq_ok.1 h
              obtain ⟨_, -, h⟩ := bind_eq_ok.1 h
              obtain ⟨_, -, h⟩ := bind_eq_ok.1 h
              obtain rfl := Outcome.ok.inj h
              exact hs.put hit hv
        | _ => simp
      | _ => simp
    | _ => simp
  | _ => simp

/-- `read_to` without a cache. -/
def nocacheReadTo (p : Profile) (io : Io) (file : List Byte) (ds : Dataset) (chunkSz : Nat)
    (ext : Extents) (dst : List Byte) : Outcome Nat × List Byte :=
  let pre : Outcome (Nat × Trace Item) := do
    let vsz ← reqBytes p ds ext
    ensure (decide (vsz ≤ dst.length)) .capacity
    let t ← ds.chunkSlices p ext
    ok (vsz, t)
  match pre with
  | ok (vsz, t) =>
    let r := loop (nocacheStep p (rawD p io file ds chunkSz) ds.dsize) (0, dst) t.items
    (r.1 >>= fun _ => t.ending >>= fun _ => ok vsz, r.2.2)
  | x => (x >>= fun _ => ok 0, dst)

theorem chunkSlices_mem {p : Profile} {ds : Dataset} {ext : Extents} {t : Trace Item}
    (h : ds.chunkSlices p ext = ok t) : ∀ it ∈ t.items, it.chunk ∈ ds.chunks := by
  unfold Dataset.chunkSlices at h
  obtain ⟨s, -, h⟩ := bind_eq_ok.1 h
  obtain rfl := Outcome.ok.inj h
  exact trace_mem _ _

/-- A read through the cache: same result as without it, and the invariant is kept. -/
theorem readTo_sim {p : Profile} {io : Io} {file : List Byte} {ds : Dataset} {cap : Nat}
    (hdet : AddrDet ds) (rd : CacheReader)
    (hs : CacheInv ds (rawD p io file ds rd.chunkSz) cap rd.cache) (ext : Extents)
    (dst : List Byte) :
    (rd.readTo p io file ds ext dst).1 = (nocacheReadTo p io file ds rd.chunkSz ext dst).1 ∧
    (rd.readTo p io file ds ext dst).2.1 = (nocacheReadTo p io file ds rd.chunkSz ext dst).2 ∧
    (rd.readTo p io file ds ext dst).2.2.chunkSz = rd.chunkSz ∧
    CacheInv ds (rawD p io file ds rd.chunkSz) cap (rd.readTo p io file ds ext dst).2.2.cache := by
  unfold CacheReader.readTo nocacheReadTo
  cases hpre : (do
      let vsz ← reqBytes p ds ext
      ensure (decide (vsz ≤ dst.length)) .capacity
      let t ← ds.chunkSlices p ext
      ok (vsz, t) : Outcome (Nat × Trace Item)) with
  | ok vt =>
    obtain ⟨vsz, t⟩ := vt
    simp only
    have ht : ds.chunkSlices p ext = ok t := by
      obtain ⟨_, -, h⟩ := bind_eq_ok.1 hpre
      obtain ⟨_, -, h⟩ := bind_eq_ok.1 h
      obtain ⟨t', ht, h⟩ := bind_eq_ok.1 h
      obtain ⟨-, rfl⟩ := Prod.mk.inj (Outcome.ok.inj h)
      exact ht
    obtain ⟨h1, h2, h3⟩ := loop_sim (cacheStep p io file ds rd.chunkSz)
      (nocacheStep p (rawD p io file ds rd.chunkSz) ds.dsize) (fun s => (s.cur, s.dst))
      (fun s => CacheInv ds (rawD p io file ds rd.chunkSz) cap s.cache) t.items
      (fun s it hit hinv => cacheStep_sim hdet (chunkSlices_mem ht it hit) hinv)
      ⟨rd.cache, 0, dst⟩ hs
    refine ⟨?_, ?_, ?_, ?_⟩
    · exact congrArg (fun o => o >>= fun _ => t.ending >>= fun _ => ok vsz) h1
    · exact congrArg Prod.snd h2
    · trivial
    · exact h3
  | _ => exact ⟨rfl, rfl, rfl, hs⟩

theorem lruCap_pos {c n : Nat} (h : lruCap c = ok n) : 0 < n ∧ n = max (33554432 / c) 1 := by
  unfold lruCap at h
  split at h
  · simp at h
  · obtain rfl := Outcome.ok.inj h
    simp only [cacheSz, and_true]; omega

theorem afterReads_inv {p : Profile} {io : Io} {file : List Byte} {ds : Dataset} {cap : Nat}
    (hdet : AddrDet ds) (h : List (Extents × List Byte)) (rd : CacheReader)
    (hs : CacheInv ds (rawD p io file ds rd.chunkSz) cap rd.cache) :
    (afterReads p io file ds rd h).chunkSz = rd.chunkSz ∧
    CacheInv ds (rawD p io file ds rd.chunkSz) cap (afterReads p io file ds rd h).cache := by
  induction h generalizing rd with
  | nil => exact ⟨rfl, hs⟩
  | cons ed h ih =>
    obtain ⟨e, d⟩ := ed
    obtain ⟨-, -, h3, h4⟩ := readTo_sim hdet rd hs e d
    have := ih (rd.readTo p io file ds e d).2.2 (by rw [h3]; exact h4)
    rw [h3] at this
    exact this

theorem withDataset_inv {p : Profile} {io : Io} {file : List Byte} {ds : Dataset} {rd : CacheReader}
    (h : CacheReader.withDataset p ds = ok rd) :
    rd.cache.entries = [] ∧ chunkBytes p ds = ok rd.chunkSz ∧
      rd.cache.cap = max (33554432 / rd.chunkSz) 1 ∧ 0 < rd.chunkSz ∧
    CacheInv ds (rawD p io file ds rd.chunkSz) (max (33554432 / rd.chunkSz) 1) rd.cache := by
  unfold CacheReader.withDataset at h
  obtain ⟨csz, h1, h⟩ := bind_eq_ok.1 h
  obtain ⟨cap, h2, h⟩ := bind_eq_ok.1 h
  obtain rfl := Outcome.ok.inj h
  obtain ⟨h3, h4⟩ := lruCap_pos h2
  have : 0 < csz := by
    unfold lruCap at h2
    split at h2
    · simp at h2
    · omega
  exact ⟨rfl, h1, h4, this, ⟨h4, by omega, by simp, by simp, by simp⟩⟩

/-- The uncached loop, for slices that do not wrap. -/
theorem nocacheFold_iff {p : Profile} {D : Chunk → Outcome (List Byte)} {dsz off : Nat}
    {items : List Item} {dst : List Byte} {s' : Nat × List Byte}
    (hle : ∀ it ∈ items, it.start ≤ it.stop) (hlt : ∀ it ∈ items, it.stop * dsz < W)
    (hn : (off + total items) * dsz ≤ dst.length) :
    items.foldlM (nocacheStep p D dsz) (off * dsz, dst) = ok s' ↔
      (∀ it ∈ items, Ready D dsz it.chunk it.stop) ∧
      s' = ((off + total items) * dsz, applyWrites dst ((tile off items).map (wr D dsz))) := by
  induction items generalizing off dst with
  | nil => simp [applyWrites, tile, total, eq_comm]
  | cons it its ih =>
    have hl := hle it (by simp)
    have hm : it.start * dsz ≤ it.stop * dsz := Nat.mul_le_mul_right _ hl
    have hd : it.stop * dsz - it.start * dsz = (it.stop - it.start) * dsz := (Nat.sub_mul _ _ _).symm
    have hw := hlt it (by simp)
    rw [total_cons, ← Nat.add_assoc] at hn
    have hcur : off * dsz + (it.stop - it.start) * dsz ≤ dst.length := by
      rw [← Nat.add_mul]; exact Nat.le_trans (Nat.mul_le_mul_right _ (by omega)) hn
    have hstep : ∀ s1, nocacheStep p D dsz (off * dsz, dst) it = ok s1 ↔
        Ready D dsz it.chunk it.stop ∧
        s1 = ((off + (it.stop - it.start)) * dsz, blit dst (off * dsz) (bytesOf D dsz it)) := by
      intro s1
      unfold nocacheStep
      rw [mul64_of_lt (by omega), ok_bind, mul64_of_lt hw, ok_bind]
      simp only [hm, decide_true, debugAssert_true, ok_bind]
      rw [sub64_of_le hm, hd]
      simp only [ok_bind]
      cases hD : D it.chunk with
      | ok v =>
        simp only [ok_bind]
        have key := fun d => slice_copy (p := p) (v := v) (dst := dst) hl hcur d
        have hsplit : ∀ x : Outcome Unit, ∀ y : Outcome Unit,
            (do x; y; let src ← sliceOf v (it.start * dsz) (it.stop * dsz)
                let d ← copyTo dst (off * dsz) (off * dsz + (it.stop - it.start) * dsz) src
                ok (off * dsz + (it.stop - it.start) * dsz, d) : Outcome (Nat × List Byte)) =
            ((do x; y; let src ← sliceOf v (it.start * dsz) (it.stop * dsz)
                 copyTo dst (off * dsz) (off * dsz + (it.stop - it.start) * dsz) src) >>= fun d =>
              ok (off * dsz + (it.stop - it.start) * dsz, d)) := by
          intro x y; simp only [Outcome.bind_assoc]
        rw [hsplit, bind_eq_ok]
        simp only [key, Ready, hD, Outcome.ok.injEq, exists_eq_left', bytesOf, valOf, Nat.add_mul]
        constructor
        · rintro ⟨d, ⟨h1, rfl⟩, rfl⟩; exact ⟨h1, rfl⟩
        · rintro ⟨h1, rfl⟩; exact ⟨_, ⟨h1, rfl⟩, rfl⟩
      | err e => simp [Ready, hD]
      | panic e => simp [Ready, hD]
      | ub => simp [Ready, hD]
      | diverge => simp [Ready, hD]
    rw [List.foldlM_cons, bind_eq_ok]
    simp only [hstep]
    have hlen : ∀ hr : Ready D dsz it.chunk it.stop,
        (blit dst (off * dsz) (bytesOf D dsz it)).length = dst.length := by
      intro hr
      exact blit_length (by rw [bytesOf_length hl hr]; exact hcur)
    constructor
    · rintro ⟨_, ⟨h1, rfl⟩, h2⟩
      rw [ih (fun x hx => hle x (by simp [hx])) (fun x hx => hlt x (by simp [hx]))
        (by rw [hlen h1]; exact hn)] at h2
      refine ⟨by simpa using ⟨h1, h2.1⟩, ?_⟩
      rw [h2.2, total_cons, ← Nat.add_assoc]
      rfl
    · rintro ⟨h1, h2⟩
      simp only [List.mem_cons, forall_eq_or_imp] at h1
      refine ⟨_, ⟨h1.1, rfl⟩, ?_⟩
      rw [ih (fun x hx => hle x (by simp [hx])) (fun x hx => hlt x (by simp [hx]))
        (by rw [hlen h1.1]; exact hn)]
      refine ⟨h1.2, ?_⟩
      rw [h2, total_cons, ← Nat.add_assoc]
      rfl

/-- What a successful cached read gives, and when it succeeds. -/
theorem nocacheReadTo_iff {p : Profile} {io : Io} {file : List Byte} {ds : Dataset} {chunkSz : Nat}
    {ext : Extents} {items : List Item} {vsz : Nat} {dst : List Byte}
    (h : Sliced p ds ext items vsz) (hn : vsz ≤ dst.length) (n : Nat) :
    (nocacheReadTo p io file ds chunkSz ext dst).1 = ok n ↔
      n = vsz ∧ ∀ it ∈ items, Ready (rawD p io file ds chunkSz) ds.dsize it.chunk it.stop := by
  have hfold := fun s' => nocacheFold_iff (p := p) (D := rawD p io file ds chunkSz) (off := 0)
    (dst := dst) (s' := s') (fun it hit => Nat.le_of_lt (h.le it hit)) h.lt
    (by rw [Nat.zero_add]; exact Nat.le_trans h.fits hn)
  rw [Nat.zero_mul] at hfold
  unfold nocacheReadTo
  rw [h.req, ok_bind, show decide (vsz ≤ dst.length) = true by simpa using hn, ensure_true, ok_bind,
    h.slices, ok_bind]
  simp only [ok_bind]
  constructor
  · intro ho
    obtain ⟨_, h1, h2⟩ := bind_eq_ok.1 ho
    have := (hfold _).1 (loop_fst_ok h1)
    exact ⟨(Outcome.ok.inj h2).symm, this.1⟩
  · rintro ⟨rfl, hr⟩
    rw [loop_ok_iff.2 ((hfold _).2 ⟨hr, rfl⟩)]
    rfl

theorem nocacheReadTo_dst {p : Profile} {io : Io} {file : List Byte} {ds : Dataset} {chunkSz : Nat}
    {ext : Extents} {items : List Item} {vsz : Nat} {dst : List Byte}
    (h : Sliced p ds ext items vsz) (hn : vsz ≤ dst.length)
    (hr : ∀ it ∈ items, Ready (rawD p io file ds chunkSz) ds.dsize it.chunk it.stop) :
    nocacheReadTo p io file ds chunkSz ext dst =
      (ok vsz, blit dst 0 (items.flatMap (bytesOf (rawD p io file ds chunkSz) ds.dsize))) := by
  have hfold := fun s' => nocacheFold_iff (p := p) (D := rawD p io file ds chunkSz) (off := 0)
    (dst := dst) (s' := s') (fun it hit => Nat.le_of_lt (h.le it hit)) h.lt
    (by rw [Nat.zero_add]; exact Nat.le_trans h.fits hn)
  rw [Nat.zero_mul] at hfold
  unfold nocacheReadTo
  rw [h.req, ok_bind, show decide (vsz ≤ dst.length) = true by simpa using hn, ensure_true, ok_bind,
    h.slices, ok_bind]
  simp only [ok_bind]
  rw [loop_ok_iff.2 ((hfold _).2 ⟨hr, rfl⟩)]
  simp only [ok_bind]
  rw [h.writes hr (List.Perm.refl _) hn]

end Hidefix.Proofs
