import Verif.Proofs.Fetches
import Verif.Props.Local

/-!
# Properties C64, C65: what is read from the file, and what is not read again
-/

set_option autoImplicit false

namespace Hidefix.Props
open Hidefix Hidefix.Spec Hidefix.Proofs Outcome

/-- The range of a chunk that the selection needs. -/
def NeededRange (ds : Dataset) (ext : Extents) (r : Nat × Nat) : Prop :=
  ∃ start count c, Selects ext ds.shape start count ∧ Needs ds start count c ∧ r = (c.addr, c.size)

theorem groups_need {p : Profile} {ds : Dataset} {ext : Extents} {sort : List GItem → List GItem}
    (hwf : WF p ds) (hfit : EndsFit ds ext) (hsort : ∀ l, SortedByAddr l (sort l))
    {l : List GItem} (h : ds.groupChunkSlices p ext sort = ok l) :
    (l.Pairwise fun a b => a.chunk.addr ≤ b.chunk.addr) ∧
    ∀ g ∈ l, NeededRange ds ext (g.chunk.addr, g.chunk.size) := by
  unfold Dataset.groupChunkSlices at h
  obtain ⟨l', h1, h⟩ := bind_eq_ok.1 h
  obtain rfl := Outcome.ok.inj h
  obtain ⟨items, h2, h3⟩ := groupUnsorted_inv h1
  obtain ⟨start, count, hsel, hn⟩ := slices_need hwf hfit h2
  refine ⟨(hsort l').2, fun g hg => ?_⟩
  obtain ⟨it, hit, e⟩ := groupScan_chunks h3 g ((hsort l').1.mem_iff.2 hg)
  exact ⟨start, count, it.chunk, hsel, hn it hit, by rw [e]⟩

theorem groups_sorted {p : Profile} {ds : Dataset} {ext : Extents} {sort : List GItem → List GItem}
    (hsort : ∀ l, SortedByAddr l (sort l))
    {l : List GItem} (h : ds.groupChunkSlices p ext sort = ok l) :
    l.Pairwise fun a b => a.chunk.addr ≤ b.chunk.addr := by
  unfold Dataset.groupChunkSlices at h
  obtain ⟨l', h1, h⟩ := bind_eq_ok.1 h
  obtain rfl := Outcome.ok.inj h
  exact (hsort l').2

theorem directFetches_cases (p : Profile) (io : Io) (ds : Dataset) (sort : List GItem → List GItem)
    (ext : Extents) (dst : List Byte) : directFetches p io ds sort ext dst = [] ∨
    ∃ csz l file, ds.groupChunkSlices p ext sort = ok l ∧ directFetches p io ds sort ext dst =
      loopFetches (directStep p io file ds csz) directFetch ⟨none, dst⟩ l := by
  unfold directFetches
  cases chunkBytes p ds with
  | ok csz =>
    cases reqBytes p ds ext with
    | ok vsz =>
      cases he : ensure (decide (vsz ≤ dst.length)) Err.capacity with
      | ok u =>
        cases hg : ds.groupChunkSlices p ext sort with
        | ok l =>
          cases io.file with
          | some file => right; simp only [ok_bind, he]; exact ⟨csz, l, file, rfl, rfl⟩
          | none => left; simp [he]
        | _ => left; simp [he]
      | _ => left; simp [he]
    | _ => left; simp
  | _ => left; simp

theorem streamFetches_cases (p : Profile) (rt : Rt) (io : Io) (ds : Dataset) (ext : Extents) :
    streamFetches p rt io ds ext = [] ∨
    ∃ csz cap l file, chunkBytes p ds = ok csz ∧ streamSlices p ds ext = ok l ∧ lruCap csz = ok cap ∧
      streamFetches p rt io ds ext =
        loopFetches (streamStep p rt io file ds csz (ok 1) ok) streamFetch ⟨⟨cap, []⟩, []⟩ l := by
  unfold streamFetches
  cases chunkBytes p ds with
  | ok csz =>
    cases hl : streamSlices p ds ext with
    | ok l =>
      cases hc : lruCap csz with
      | ok cap =>
        cases io.file with
        | some file => right; simp only [ok_bind, hc]; exact ⟨csz, cap, l, file, rfl, rfl, hc, rfl⟩
        | none => left; simp [hc]
      | _ => left; simp [hc]
    | _ => left; simp
  | _ => left; simp

/-! ## C64 -/

/-- C64, `Direct::read_to`: the file is read forwards, no range twice. For every dataset (also malformed
ones), file, selection, destination, in debug and release builds, also when the call fails. -/
theorem C64_direct {p : Profile} {io : Io} {ds : Dataset} {sort : List GItem → List GItem}
    {ext : Extents} {dst : List Byte} (hsort : ∀ l, SortedByAddr l (sort l)) :
    (directFetches p io ds sort ext dst).Pairwise fun a b => a.1 < b.1 := by
  rcases directFetches_cases p io ds sort ext dst with h | ⟨csz, l, file, h1, h⟩
  · rw [h]; exact .nil
  · rw [h]; exact (direct_loop_fetches (groups_sorted hsort h1) _ (by simp)).1

/-- C64, `Direct::read_to`: only ranges of chunks that hold a selected element are read. -/
theorem C64_direct_needed {p : Profile} {io : Io} {ds : Dataset} {sort : List GItem → List GItem}
    {ext : Extents} {dst : List Byte} (hwf : WF p ds) (hfit : EndsFit ds ext)
    (hsort : ∀ l, SortedByAddr l (sort l)) :
    ∀ r ∈ directFetches p io ds sort ext dst, NeededRange ds ext r := by
  rcases directFetches_cases p io ds sort ext dst with h | ⟨csz, l, file, h1, h⟩
  · rw [h]; simp
  · rw [h]
    obtain ⟨k1, k2⟩ := groups_need hwf hfit hsort h1
    intro r hr
    obtain ⟨-, g, hg, rfl⟩ := (direct_loop_fetches k1 _ (by simp)).2.1 r hr
    exact k2 g hg

/-- C64, `Direct::read_to_par`: one range per group, no two groups read the same range. -/
theorem C64_par {p : Profile} {ds : Dataset} {sort : List GItem → List GItem}
    {ext : Extents} {n : Nat} (hsort : ∀ l, SortedByAddr l (sort l)) :
    (parFetches p ds sort ext n).Pairwise fun a b => a.1 < b.1 := by
  unfold parFetches
  split
  · rename_i csz vsz groups h
    unfold parPrelude at h
    obtain ⟨_, -, h⟩ := bind_eq_ok.1 h
    obtain ⟨_, -, h⟩ := bind_eq_ok.1 h
    obtain ⟨_, -, h⟩ := bind_eq_ok.1 h
    obtain ⟨l, h1, h⟩ := bind_eq_ok.1 h
    obtain ⟨-, h⟩ := Prod.mk.inj (Outcome.ok.inj h)
    obtain ⟨-, rfl⟩ := Prod.mk.inj h
    exact (chunkBy_heads (groups_sorted hsort h1)).1
  · exact .nil

theorem C64_par_needed {p : Profile} {ds : Dataset} {sort : List GItem → List GItem}
    {ext : Extents} {n : Nat} (hwf : WF p ds) (hfit : EndsFit ds ext)
    (hsort : ∀ l, SortedByAddr l (sort l)) :
    ∀ r ∈ parFetches p ds sort ext n, NeededRange ds ext r := by
  unfold parFetches
  split
  · rename_i csz vsz groups h
    unfold parPrelude at h
    obtain ⟨_, -, h⟩ := bind_eq_ok.1 h
    obtain ⟨_, -, h⟩ := bind_eq_ok.1 h
    obtain ⟨_, -, h⟩ := bind_eq_ok.1 h
    obtain ⟨l, h1, h⟩ := bind_eq_ok.1 h
    obtain ⟨-, h⟩ := Prod.mk.inj (Outcome.ok.inj h)
    obtain ⟨-, rfl⟩ := Prod.mk.inj h
    obtain ⟨k1, k2⟩ := groups_need hwf hfit hsort h1
    intro r hr
    obtain ⟨g, hg, rfl⟩ := (chunkBy_heads k1).2.1 r hr
    exact k2 g hg
  · simp

/-- C64, S3: every chunk is in one request only. -/
theorem C64_s3 {p : Profile} {ds : Dataset} {sort : List GItem → List GItem}
    {ext : Extents} {n csz vsz : Nat} {reqs : List Request} (hsort : ∀ l, SortedByAddr l (sort l))
    (h : s3Prelude p ds sort ext n = ok (csz, vsz, reqs)) :
    (s3Chunks reqs).Pairwise fun a b => a.addr < b.addr := by
  unfold s3Prelude at h
  obtain ⟨_, -, h⟩ := bind_eq_ok.1 h
  obtain ⟨_, -, h⟩ := bind_eq_ok.1 h
  obtain ⟨_, -, h⟩ := bind_eq_ok.1 h
  obtain ⟨l, h1, h⟩ := bind_eq_ok.1 h
  obtain ⟨r, h2, h⟩ := bind_eq_ok.1 h
  obtain ⟨-, h⟩ := Prod.mk.inj (Outcome.ok.inj h)
  obtain ⟨-, rfl⟩ := Prod.mk.inj h
  exact groupRequests_chunks (groups_sorted hsort h1) (by simp [s3Chunks]) (by simp [s3Chunks]) h2

/-- The chunks that the selection needs are among `L`, and decoded they fit into the cache of 32 MiB. -/
structure FitsCache (p : Profile) (ds : Dataset) (ext : Extents) (L : List Chunk) : Prop where
  needed : ∀ start count, Selects ext ds.shape start count → ∀ c, Needs ds start count c → c ∈ L
  small : ∀ csz, chunkBytes p ds = ok csz → L.length * csz ≤ 33554432

theorem FitsCache.cap {p : Profile} {ds : Dataset} {ext : Extents} {L : List Chunk}
    (h : FitsCache p ds ext L) {csz : Nat} (hc : chunkBytes p ds = ok csz) (hpos : 0 < csz) :
    L.length ≤ max (33554432 / csz) 1 := by
  have := (Nat.le_div_iff_mul_le hpos).2 (h.small csz hc)
  omega

theorem fetch_need (s : CacheSt) (it : Item) : cacheFetch s it =
    if s.cache.get it.chunk.addr = none then some (it.chunk.addr, it.chunk.size) else none := by
  unfold cacheFetch
  cases s.cache.get it.chunk.addr <;> simp

/-- Reading through the cache: what is fetched and what is in the cache afterwards. -/
theorem cache_fetches {p : Profile} {io : Io} {file : List Byte} {ds : Dataset} {ext : Extents}
    {rd : CacheReader} {dst : List Byte} {all : List Nat} {items : List Item} {e : Outcome Unit}
    (hs : ds.chunkSlices p ext = ok ⟨items, e⟩) (hall : ∀ it ∈ items, it.chunk.addr ∈ all)
    (hcap : all.length ≤ rd.cache.cap) :
    ((rd.fetches p io file ds ext dst).map Prod.fst).Nodup ∧
    (∀ r ∈ rd.fetches p io file ds ext dst, ∃ it ∈ items, r = (it.chunk.addr, it.chunk.size)) ∧
    ((∃ n, (rd.readTo p io file ds ext dst).1 = ok n) →
      ∀ it ∈ items, it.chunk.addr ∈ (rd.readTo p io file ds ext dst).2.2.cache.entries.map Prod.fst) := by
  have key := cached_loop (f := cacheStep p io file ds rd.chunkSz) (need := cacheFetch)
    CacheSt.cache (fun it : Item => it.chunk.addr) (fun it : Item => it.chunk.size) all fetch_need
    (fun s b s' h => cacheStep_lru h) items hall [] ⟨rd.cache, 0, dst⟩ hcap
    ⟨[], _, rfl, by simp, by simp, by simp⟩
  obtain ⟨k1, k2, k3⟩ := key
  unfold CacheReader.fetches CacheReader.readTo
  cases hv : reqBytes p ds ext with
  | ok vsz =>
    cases he : ensure (decide (vsz ≤ dst.length)) Err.capacity with
    | ok u =>
      simp only [ok_bind, he, hs]
      refine ⟨k1, fun r hr => (k2 r hr).2, ?_⟩
      rintro ⟨n, hn⟩ it hit
      obtain ⟨_, h1, -⟩ := bind_eq_ok.1 hn
      obtain ⟨pre, suf, h0, -, -, h3⟩ := k3 h1
      rw [h0]
      exact List.mem_append.2 (.inl (h3 _ (by simp; exact ⟨it, hit, rfl⟩)))
    | _ => simp [he]
  | _ => simp

/-- C64, `CacheReader`: a call whose chunks fit into the cache reads no range twice, whatever the reader
has read before, and only ranges of needed chunks. -/
theorem C64_cached {p : Profile} {io : Io} {file : List Byte} {ds : Dataset} {ext : Extents}
    {rd0 : CacheReader} {L : List Chunk} {dst : List Byte} (hwf : WF p ds) (hfit : EndsFit ds ext)
    (hdet : AddrDet ds) (hrd : CacheReader.withDataset p ds = ok rd0)
    (hist : List (Extents × List Byte)) (hL : FitsCache p ds ext L) :
    let rd := afterReads p io file ds rd0 hist
    ((rd.fetches p io file ds ext dst).map Prod.fst).Nodup ∧
    ∀ r ∈ rd.fetches p io file ds ext dst, NeededRange ds ext r := by
  intro rd
  obtain ⟨-, hc, -, hpos, hinv⟩ := withDataset_inv (io := io) (file := file) hrd
  obtain ⟨-, hinv'⟩ := afterReads_inv hdet hist rd0 hinv
  cases hs : ds.chunkSlices p ext with
  | ok t =>
    obtain ⟨items, e⟩ := t
    obtain ⟨start, count, hsel, hn⟩ := slices_need hwf hfit hs
    obtain ⟨k1, k2, -⟩ := cache_fetches (rd := rd) (io := io) (file := file) (dst := dst)
      (all := L.map Chunk.addr) hs
      (fun it hit => List.mem_map_of_mem (hL.needed _ _ hsel _ (hn it hit)))
      (by rw [List.length_map, hinv'.cap_eq]; exact hL.cap hc hpos)
    refine ⟨k1, fun r hr => ?_⟩
    obtain ⟨it, hit, rfl⟩ := k2 r hr
    exact ⟨start, count, it.chunk, hsel, hn it hit, rfl⟩
  | _ =>
    unfold CacheReader.fetches
    cases hv : reqBytes p ds ext with
    | ok vsz => cases he : ensure (decide (vsz ≤ dst.length)) Err.capacity <;> simp [he, hs]
    | _ => simp

theorem stream_need (s : StreamSt) (b : BSlice) : streamFetch s b =
    if s.cache.get b.addr = none then some (b.addr, b.size) else none := by
  unfold streamFetch
  cases s.cache.get b.addr <;> simp

/-- C64, streams: a stream whose chunks fit into its cache reads no range twice, and only ranges of
needed chunks. -/
theorem C64_stream {p : Profile} {rt : Rt} {io : Io} {ds : Dataset} {ext : Extents}
    {L : List Chunk} (hwf : WF p ds) (hfit : EndsFit ds ext) (hL : FitsCache p ds ext L) :
    ((streamFetches p rt io ds ext).map Prod.fst).Nodup ∧
    ∀ r ∈ streamFetches p rt io ds ext, NeededRange ds ext r := by
  rcases streamFetches_cases p rt io ds ext with h | ⟨csz', cap', l', f, hc, hsl, hcap, h⟩
  · rw [h]; simp
  · rw [h]
    unfold streamSlices at hsl
    obtain ⟨t, h1, hsl⟩ := bind_eq_ok.1 hsl
    obtain ⟨l'', h2, hsl⟩ := bind_eq_ok.1 hsl
    obtain ⟨_, -, hsl⟩ := bind_eq_ok.1 hsl
    obtain rfl := Outcome.ok.inj hsl
    obtain ⟨start, count, hsel, hn⟩ := slices_need hwf hfit h1
    have hb := mapM_bslice h2
    have hpos : 0 < csz' := by
      unfold lruCap at hcap
      split at hcap
      · simp at hcap
      · omega
    obtain ⟨k1, k2, -⟩ := cached_loop (f := streamStep p rt io f ds csz' (ok 1) ok)
      (need := streamFetch) StreamSt.cache BSlice.addr BSlice.size (L.map Chunk.addr) stream_need
      (fun s b s' h => streamStep_lru h) l'' (fun b hbl => by
        obtain ⟨it, hit, e1, -⟩ := hb b hbl
        rw [e1]
        exact List.mem_map_of_mem (hL.needed _ _ hsel _ (hn it hit))) [] ⟨⟨cap', []⟩, []⟩
      (by rw [List.length_map, (lruCap_pos hcap).2]; exact hL.cap hc hpos)
      ⟨[], _, rfl, by simp, by simp, by simp⟩
    refine ⟨k1, fun r hr => ?_⟩
    obtain ⟨-, b, hbl, rfl⟩ := k2 r hr
    obtain ⟨it, hit, e1, e2⟩ := hb b hbl
    exact ⟨start, count, it.chunk, hsel, hn it hit, by rw [e1, e2]⟩

/-- C64, the other direction for the selections that are read right (`Spec.Good`): a successful direct
read has read every needed chunk, hence (with `C64_direct`, `C64_direct_needed`) each exactly once. -/
theorem C64_direct_all_partial {p : Profile} {io : Io} {file : List Byte} {ds : Dataset}
    {A : List Nat → List Byte} {ext : Extents} {start count : List Nat}
    {sort : List GItem → List GItem} {dst : List Byte}
    (h : Setup p io file ds A ext start count) (hg : Good p ds start count)
    (hsort : ∀ l, SortedByAddr l (sort l)) (hd : count.prod * ds.dsize ≤ dst.length) :
    ∀ c, Needs ds start count c → (c.addr, c.size) ∈ directFetches p io ds sort ext dst := by
  intro c hc
  obtain ⟨items, h1, h2, h3, h4, -⟩ := setup_core h hg
  obtain ⟨it, hit, rfl⟩ := (needs_iff h.wf h.inb h2 h1.le c).1 hc
  have hok := ((directReadTo_iff h.addr (fun l => (hsort l).1) h3 h.opened h1 hd).2 h4)
  have hp := (hsort (tile 0 items)).1
  have hloop : (loop (directStep p io file ds (ds.chunkShape.prod * ds.dsize)) ⟨none, dst⟩
      (sort (tile 0 items))).1 = ok () := by
    have := congrArg Prod.fst hok
    unfold directReadTo at this
    rw [h3, ok_bind, h1.req, ok_bind, show decide (count.prod * ds.dsize ≤ dst.length) = true by
      simpa using hd, ensure_true, ok_bind, h1.groups, ok_bind, h.opened] at this
    simp only at this
    obtain ⟨_, e, -⟩ := bind_eq_ok.1 this
    exact e
  obtain ⟨-, k2, k3⟩ := direct_loop_fetches (p := p) (io := io) (file := file) (ds := ds)
    (csz := ds.chunkShape.prod * ds.dsize) (hsort (tile 0 items)).2 ⟨none, dst⟩ (by simp)
  obtain ⟨g, hgm, hgc⟩ : ∃ g ∈ tile 0 items, g.chunk = it.chunk := by
    obtain ⟨g, a, b, -⟩ := mem_tile 0 hit
    exact ⟨g, a, b⟩
  rcases k3 hloop g (hp.mem_iff.1 hgm) with ⟨v, hv⟩ | ⟨r, hr, he⟩
  · simp at hv
  · obtain ⟨-, g', hg', rfl⟩ := k2 r hr
    have hm' := h1.mem _ (tile_mem (hp.mem_iff.2 hg'))
    have hsz := h.addr _ hm' _ (h1.mem it hit) (by rw [← hgc]; exact he)
    unfold directFetches
    rw [h3, ok_bind, h1.req, ok_bind, show decide (count.prod * ds.dsize ≤ dst.length) = true by
      simpa using hd, ensure_true, ok_bind, h1.groups, ok_bind, h.opened]
    simp only
    rw [← hsz, ← hgc, ← he]
    exact hr

/-! ## C65 -/

/-- Reads whose chunks are all in the cache do not look at the file. -/
theorem warm_read {p : Profile} {io io' : Io} {file file' : List Byte} {ds : Dataset} {ext : Extents}
    {rd : CacheReader} {dst : List Byte} {items : List Item} {e : Outcome Unit}
    (hs : ds.chunkSlices p ext = ok ⟨items, e⟩)
    (hw : ∀ it ∈ items, it.chunk.addr ∈ rd.cache.entries.map Prod.fst) :
    rd.readTo p io file ds ext dst = rd.readTo p io' file' ds ext dst ∧
    rd.fetches p io file ds ext dst = [] := by
  have key : ∀ (bs : List Item) (s : CacheSt),
      (∀ it ∈ bs, it.chunk.addr ∈ s.cache.entries.map Prod.fst) →
      loop (cacheStep p io file ds rd.chunkSz) s bs = loop (cacheStep p io' file' ds rd.chunkSz) s bs ∧
      loopFetches (cacheStep p io file ds rd.chunkSz) cacheFetch s bs = [] := by
    intro bs
    induction bs with
    | nil => intro s _; exact ⟨rfl, rfl⟩
    | cons it bs ih =>
      intro s hb
      have hk := hb it (by simp)
      cases hg : s.cache.get it.chunk.addr with
      | none => exact absurd hk (Lru.get_none.1 hg)
      | some vl =>
        have hsame : cacheStep p io file ds rd.chunkSz s it = cacheStep p io' file' ds rd.chunkSz s it := by
          unfold cacheStep
          rw [hg]
        have hf : cacheFetch s it = none := by unfold cacheFetch; rw [hg]
        unfold loop loopFetches
        rw [← hsame, hf]
        cases hst : cacheStep p io file ds rd.chunkSz s it with
        | ok s' =>
          simp only [Option.toList_none, List.nil_append]
          refine ih s' fun x hx => ?_
          rcases cacheStep_lru hst with ⟨v, h⟩ | ⟨v, h⟩
          · exact (Lru.get_mem_iff h).2 (hb x (by simp [hx]))
          · unfold cacheStep at hst
            rw [hg] at hst
            obtain ⟨_, -, hst⟩ := bind_eq_ok.1 hst
            obtain ⟨_, -, hst⟩ := bind_eq_ok.1 hst
            obtain ⟨_, -, hst⟩ := bind_eq_ok.1 hst
            obtain ⟨_, -, hst⟩ := bind_eq_ok.1 hst
            simp only at hst
            obtain ⟨_, -, hst⟩ := bind_eq_ok.1 hst
            obtain ⟨_, -, hst⟩ := bind_eq_ok.1 hst
            obtain ⟨_, -, hst⟩ := bind_eq_ok.1 hst
            obtain ⟨_, -, hst⟩ := bind_eq_ok.1 hst
            obtain rfl := Outcome.ok.inj hst
            obtain ⟨v', l⟩ := vl
            exact (Lru.get_mem_iff hg).2 (hb x (by simp [hx]))
        | _ => exact ⟨rfl, rfl⟩
  obtain ⟨k1, k2⟩ := key items ⟨rd.cache, 0, dst⟩ hw
  unfold CacheReader.readTo CacheReader.fetches
  cases hv : reqBytes p ds ext with
  | ok vsz =>
    cases he : ensure (decide (vsz ≤ dst.length)) Err.capacity with
    | ok u => simp only [ok_bind, he, hs, k1, k2, and_self]
    | _ => simp [he]
  | _ => simp

/-- C65: when a selection whose chunks fit into the cache has been read through a `CacheReader`, with
whatever history, then reading it again right away does not read from the file: no range is fetched, and
the result is the same even if the file has meanwhile been damaged, truncated or replaced. -/
theorem C65 {p : Profile} {io io' : Io} {file file' : List Byte} {ds : Dataset} {ext : Extents}
    {rd0 : CacheReader} {L : List Chunk} {dst dst' : List Byte} {n : Nat} (hwf : WF p ds)
    (hfit : EndsFit ds ext) (hdet : AddrDet ds) (hrd : CacheReader.withDataset p ds = ok rd0)
    (hist : List (Extents × List Byte)) (hL : FitsCache p ds ext L)
    (hok : ((afterReads p io file ds rd0 hist).readTo p io file ds ext dst).1 = ok n) :
    let rd := ((afterReads p io file ds rd0 hist).readTo p io file ds ext dst).2.2
    rd.fetches p io file ds ext dst' = [] ∧
    rd.readTo p io' file' ds ext dst' = rd.readTo p io file ds ext dst' := by
  intro rd
  obtain ⟨-, hc, -, hpos, hinv⟩ := withDataset_inv (io := io) (file := file) hrd
  obtain ⟨-, hinv'⟩ := afterReads_inv hdet hist rd0 hinv
  cases hs : ds.chunkSlices p ext with
  | ok t =>
    obtain ⟨items, e⟩ := t
    obtain ⟨start, count, hsel, hn⟩ := slices_need hwf hfit hs
    obtain ⟨-, -, k3⟩ := cache_fetches (rd := afterReads p io file ds rd0 hist) (io := io) (file := file)
      (dst := dst) (all := L.map Chunk.addr) hs
      (fun it hit => List.mem_map_of_mem (hL.needed _ _ hsel _ (hn it hit)))
      (by rw [List.length_map, hinv'.cap_eq]; exact hL.cap hc hpos)
    obtain ⟨w1, w2⟩ := warm_read (rd := rd) (io := io) (io' := io') (file := file) (file' := file')
      (dst := dst') hs (k3 ⟨n, hok⟩)
    exact ⟨w2, w1.symm⟩
  | _ =>
    unfold CacheReader.readTo at hok
    cases hv : reqBytes p ds ext with
    | ok vsz => cases he : ensure (decide (vsz ≤ dst.length)) Err.capacity <;> simp [hv, he, hs] at hok
    | _ => simp [hv] at hok

/-! ## Concrete cases -/

theorem topRows_cache (p : Profile) : FitsCache p Demo.ds topRows Demo.ds.chunks where
  needed _ _ _ _ h := h.1
  small csz h := by
    have h' : chunkBytes p Demo.ds = ok 8 := by cases p <;> rfl
    rw [h'] at h
    obtain rfl := Outcome.ok.inj h
    decide

/-- After reading the top rows, even an empty file gives them again. -/
example (p : Profile) (rd0 : CacheReader) (hrd : CacheReader.withDataset p Demo.ds = ok rd0)
    (dst dst' : List Byte) (n : Nat)
    (hok : ((afterReads p Demo.io Demo.file Demo.ds rd0 []).readTo p Demo.io Demo.file Demo.ds topRows
      dst).1 = ok n) :
    let rd := ((afterReads p Demo.io Demo.file Demo.ds rd0 []).readTo p Demo.io Demo.file Demo.ds topRows
      dst).2.2
    rd.readTo p (withFile Demo.io []) [] Demo.ds topRows dst' =
      rd.readTo p Demo.io Demo.file Demo.ds topRows dst' :=
  (C65 (Demo.wf p) topRows_fit Demo.addr hrd [] (topRows_cache p) hok).2

/-- The first two chunks, each once although the rows alternate between them. -/
example : (CacheReader.withDataset .debug Demo.ds >>= fun rd =>
    ok (rd.fetches .debug Demo.io Demo.file Demo.ds topRows (List.replicate 16 0))) =
    ok [(9, 9), (0, 9)] := by decide +kernel

end Hidefix.Props
