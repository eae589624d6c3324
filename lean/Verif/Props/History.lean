import Verif.Spec.History
import Verif.Props.Fetches

/-!
# Property C81: over the life of a `CacheReader`, a chunk is read once
-/

set_option autoImplicit false

namespace Hidefix.Props
open Hidefix Hidefix.Spec Hidefix.Proofs Outcome

/-- A loop with a cache that is large enough for all its keys: what it fetches is new, except perhaps
the fetch of the iteration that fails. -/
theorem cached_loop_history {σ β : Type} {f : σ → β → Outcome σ} {need : σ → β → Option (Nat × Nat)}
    (cacheOf : σ → Lru) (key size : β → Nat) (all : List Nat)
    (hneed : ∀ s b, need s b = if (cacheOf s).get (key b) = none then some (key b, size b) else none)
    (hf : ∀ s b s', f s b = ok s' → (∃ v, (cacheOf s).get (key b) = some (v, cacheOf s')) ∨
      ∃ v, cacheOf s' = (cacheOf s).put (key b) v)
    (bs : List β) (hall : ∀ b ∈ bs, key b ∈ all) (done : List Nat) (s : σ)
    (hcap : all.length ≤ (cacheOf s).cap) (hs : Recent all done (cacheOf s)) :
    ∃ good bad, loopFetches f need s bs = good ++ bad ∧ bad.length ≤ 1 ∧
      ((loop f s bs).1 = ok () → bad = []) ∧ (good.map Prod.fst).Nodup ∧
      (∀ r ∈ good, r.1 ∉ done) ∧ (∀ r ∈ good ++ bad, ∃ b ∈ bs, r = (key b, size b)) ∧
      Recent all (done ++ good.map Prod.fst) (cacheOf (loop f s bs).2) ∧
      (cacheOf (loop f s bs).2).cap = (cacheOf s).cap := by
  induction bs generalizing done s with
  | nil => exact ⟨[], [], by simp [loopFetches], by simp, by simp, by simp, by simp, by simp,
      by simpa [loop] using hs, rfl⟩
  | cons b bs ih =>
    have hnew : ∀ r ∈ (need s b).toList, r.1 ∉ done ∧ r = (key b, size b) := by
      intro r hr
      rw [hneed] at hr
      split at hr
      · rename_i hn
        simp only [Option.toList_some, List.mem_singleton] at hr
        subst hr
        refine ⟨fun hd => ?_, rfl⟩
        rw [Lru.get_none] at hn
        obtain ⟨pre, suf, h0, -, -, h3⟩ := hs
        exact hn (by rw [h0]; exact List.mem_append.2 (.inl (h3 _ hd)))
      · simp at hr
    unfold loopFetches loop
    cases hfs : f s b with
    | ok s' =>
      simp only
      have hk := hall b (by simp)
      have hrec : Recent all (done ++ [key b]) (cacheOf s') ∧ (cacheOf s').cap = (cacheOf s).cap := by
        rcases hf s b s' hfs with ⟨v, hg⟩ | ⟨v, hp⟩
        · exact ⟨hs.get hk hg, (Lru.get_keys hg).1⟩
        · rw [hp]; exact ⟨hs.put hk hcap, rfl⟩
      obtain ⟨good, bad, e, i1, i2, i3, i4, i5, i6, i7⟩ :=
        ih (fun x hx => hall x (by simp [hx])) _ s' (by rw [hrec.2]; exact hcap) hrec.1
      refine ⟨(need s b).toList ++ good, bad, by rw [e, List.append_assoc], i1, i2, ?_, ?_, ?_, ?_,
        by rw [i7, hrec.2]⟩
      · rw [List.map_append, List.nodup_append]
        refine ⟨by cases need s b <;> simp, i3, ?_⟩
        rintro x hx _ hy rfl
        obtain ⟨r, hr, rfl⟩ := List.mem_map.1 hx
        obtain ⟨r', hr', e⟩ := List.mem_map.1 hy
        refine i4 r' hr' ?_
        rw [e, (hnew r hr).2]
        simp
      · intro r hr
        rcases List.mem_append.1 hr with hr | hr
        · exact (hnew r hr).1
        · exact fun h => i4 r hr (by simp [h])
      · intro r hr
        rw [List.append_assoc] at hr
        rcases List.mem_append.1 hr with hr | hr
        · exact ⟨b, by simp, (hnew r hr).2⟩
        · obtain ⟨b', k1, k2⟩ := i5 r hr
          exact ⟨b', by simp [k1], k2⟩
      · obtain ⟨pre, suf, h0, h1, h2, h3⟩ := i6
        refine ⟨pre, suf, h0, h1, h2, fun k hk => h3 k ?_⟩
        rw [List.map_append] at hk
        rcases List.mem_append.1 hk with hk | hk
        · simp [hk]
        rcases List.mem_append.1 hk with hk | hk
        · obtain ⟨r, hr, rfl⟩ := List.mem_map.1 hk
          rw [(hnew r hr).2]
          simp
        · exact List.mem_append.2 (.inr hk)
    | _ =>
      simp only [List.append_nil]
      exact ⟨[], (need s b).toList, by simp, by cases need s b <;> simp, by simp, by simp, by simp,
        fun r hr => ⟨b, by simp, (hnew r (by simpa using hr)).2⟩, by simpa using hs, trivial⟩

/-- One call. -/
theorem cache_call {p : Profile} {io : Io} {file : List Byte} {ds : Dataset} {ext : Extents}
    {rd : CacheReader} {dst : List Byte} {all done : List Nat}
    (hall : ∀ t, ds.chunkSlices p ext = ok t → ∀ it ∈ t.items, it.chunk.addr ∈ all)
    (hcap : all.length ≤ rd.cache.cap) (hs : Recent all done rd.cache) :
    ∃ good bad, rd.fetches p io file ds ext dst = good ++ bad ∧ bad.length ≤ 1 ∧
      ((∃ n, (rd.readTo p io file ds ext dst).1 = ok n) → bad = []) ∧ (good.map Prod.fst).Nodup ∧
      (∀ r ∈ good, r.1 ∉ done) ∧
      (∀ r ∈ good ++ bad, ∃ t, ds.chunkSlices p ext = ok t ∧
        ∃ it ∈ t.items, r = (it.chunk.addr, it.chunk.size)) ∧
      Recent all (done ++ good.map Prod.fst) (rd.readTo p io file ds ext dst).2.2.cache ∧
      (rd.readTo p io file ds ext dst).2.2.cache.cap = rd.cache.cap := by
  have nothing : ∀ (P : Nat × Nat → Prop) (o : Outcome Nat) (d : List Byte), ∃ good bad : List (Nat × Nat),
      [] = good ++ bad ∧ bad.length ≤ 1 ∧
      ((∃ n, (o, d, rd).1 = ok n) → bad = []) ∧ (good.map Prod.fst).Nodup ∧
      (∀ r ∈ good, r.1 ∉ done) ∧
      (∀ r ∈ good ++ bad, P r) ∧
      Recent all (done ++ good.map Prod.fst) (o, d, rd).2.2.cache ∧
      (o, d, rd).2.2.cache.cap = rd.cache.cap := fun P o d =>
    ⟨[], [], by simp, by simp, by simp, by simp, by simp, by simp, by simpa using hs, rfl⟩
  unfold CacheReader.fetches CacheReader.readTo
  cases hv : reqBytes p ds ext with
  | ok vsz =>
    cases he : ensure (decide (vsz ≤ dst.length)) Err.capacity with
    | ok u =>
      cases ht : ds.chunkSlices p ext with
      | ok t =>
        obtain ⟨good, bad, k1, k2, k3, k4, k5, k6, k7, k8⟩ := cached_loop_history
          (f := cacheStep p io file ds rd.chunkSz) (need := cacheFetch)
          CacheSt.cache (fun it : Item => it.chunk.addr) (fun it : Item => it.chunk.size) all fetch_need
          (fun s b s' h => cacheStep_lru h) t.items (hall t ht) done ⟨rd.cache, 0, dst⟩ hcap hs
        simp only [ok_bind, he]
        refine ⟨good, bad, k1, k2, ?_, k4, k5, fun r hr => ⟨t, rfl, k6 r hr⟩, k7, k8⟩
        rintro ⟨n, hn⟩
        obtain ⟨_, h1, -⟩ := bind_eq_ok.1 hn
        exact k3 h1
      | _ => simp only [ok_bind, he]; exact nothing _ _ _
    | _ => simp only [ok_bind, he]; exact nothing _ _ _
  | _ => exact nothing _ _ _

theorem history_split {p : Profile} {ds : Dataset} {all : List Nat} (hist : List Call)
    (hall : ∀ c ∈ hist, ∀ t, ds.chunkSlices p c.ext = ok t → ∀ it ∈ t.items, it.chunk.addr ∈ all)
    (done : List Nat) (rd : CacheReader) (hcap : all.length ≤ rd.cache.cap)
    (hs : Recent all done rd.cache) :
    ∃ good bad, (historyFetches p ds rd hist).Perm (good ++ bad) ∧
      bad.length ≤ historyFailures p ds rd hist ∧ (good.map Prod.fst).Nodup ∧
      (∀ r ∈ good, r.1 ∉ done) ∧
      ∀ r ∈ good ++ bad, ∃ c ∈ hist, ∃ t, ds.chunkSlices p c.ext = ok t ∧
        ∃ it ∈ t.items, r = (it.chunk.addr, it.chunk.size) := by
  induction hist generalizing done rd with
  | nil => exact ⟨[], [], .refl _, by simp, by simp, by simp, by simp⟩
  | cons c h ih =>
    obtain ⟨g, b, k1, k2, k3, k4, k5, k6, k7, k8⟩ := cache_call (rd := rd) (io := c.io) (file := c.file)
      (dst := c.dst) (hall c (by simp)) hcap hs
    obtain ⟨g', b', l1, l2, l3, l4, l5⟩ := ih (fun x hx => hall x (by simp [hx])) _ _
      (by rw [k8]; exact hcap) k7
    refine ⟨g ++ g', b ++ b', ?_, ?_, ?_, ?_, ?_⟩
    · unfold historyFetches
      rw [k1]
      refine (List.Perm.append_left _ l1).trans ?_
      rw [List.append_assoc, List.append_assoc]
      refine List.Perm.append_left _ ?_
      rw [← List.append_assoc, ← List.append_assoc]
      exact List.Perm.append_right _ List.perm_append_comm
    · unfold historyFailures
      rw [List.length_append]
      have : b.length ≤ (match (rd.readTo p c.io c.file ds c.ext c.dst).1 with | ok _ => 0 | _ => 1) := by
        split
        · rename_i n hn
          rw [k3 ⟨n, hn⟩]; simp
        · exact k2
      exact Nat.add_le_add this l2
    · rw [List.map_append, List.nodup_append]
      refine ⟨k4, l3, ?_⟩
      rintro x hx _ hy rfl
      obtain ⟨r, hr, rfl⟩ := List.mem_map.1 hy
      exact l4 r hr (List.mem_append.2 (.inr hx))
    · intro r hr
      rcases List.mem_append.1 hr with hr | hr
      · exact k5 r hr
      · exact fun hd => l4 r hr (List.mem_append.2 (.inl hd))
    · intro r hr
      have : r ∈ g ++ b ∨ r ∈ g' ++ b' := by
        simp only [List.mem_append] at hr ⊢
        tauto
      rcases this with hr | hr
      · exact ⟨c, by simp, k6 r hr⟩
      · obtain ⟨x, hx, e⟩ := l5 r hr
        exact ⟨x, by simp [hx], e⟩

/-- The reader is fresh, and all its calls need chunks of `L` only, which fit into the cache. -/
theorem history_good {p : Profile} {ds : Dataset} {rd : CacheReader} {L : List Chunk}
    {hist : List Call} (hwf : WF p ds) (hrd : CacheReader.withDataset p ds = ok rd)
    (hfit : ∀ c ∈ hist, EndsFit ds c.ext) (hL : ∀ c ∈ hist, FitsCache p ds c.ext L) :
    ∃ good bad, (historyFetches p ds rd hist).Perm (good ++ bad) ∧
      bad.length ≤ historyFailures p ds rd hist ∧ (good.map Prod.fst).Nodup ∧
      ∀ r ∈ good ++ bad, ∃ c ∈ L, r = (c.addr, c.size) := by
  cases hist with
  | nil => exact ⟨[], [], .refl _, by simp, by simp, by simp⟩
  | cons c0 h0 =>
    obtain ⟨-, hc, -, hpos, hinv⟩ := withDataset_inv (io := c0.io) (file := c0.file) hrd
    have hneed : ∀ c ∈ c0 :: h0, ∀ t, ds.chunkSlices p c.ext = ok t → ∀ it ∈ t.items, it.chunk ∈ L := by
      intro c hcm t ht it hit
      obtain ⟨start, count, hsel, hn⟩ := slices_need hwf (hfit c hcm) ht
      exact (hL c hcm).needed _ _ hsel _ (hn it hit)
    obtain ⟨good, bad, k1, k2, k3, -, k5⟩ := history_split (all := L.map Chunk.addr) (c0 :: h0)
      (fun c hcm t ht it hit => List.mem_map_of_mem (hneed c hcm t ht it hit)) [] rd
      (by rw [List.length_map, hinv.cap_eq]; exact (hL c0 (by simp)).cap hc hpos)
      ⟨[], _, rfl, by simp, by simp, by simp⟩
    refine ⟨good, bad, k1, k2, k3, fun r hr => ?_⟩
    obtain ⟨c, hcm, t, ht, it, hit, e⟩ := k5 r hr
    exact ⟨it.chunk, hneed c hcm t ht it hit, e⟩

/-- C81: a `CacheReader` is opened, and then any number of calls is made on it, whose chunks are all
among `L`, and decoded `L` fits into the cache. Then together the calls read at most as many ranges as
`L` has chunks, plus one for each call that fails, and each of them is the range of a chunk in `L`. -/
theorem C81 {p : Profile} {ds : Dataset} {rd : CacheReader} {L : List Chunk}
    {hist : List Call} (hwf : WF p ds) (hrd : CacheReader.withDataset p ds = ok rd)
    (hfit : ∀ c ∈ hist, EndsFit ds c.ext) (hL : ∀ c ∈ hist, FitsCache p ds c.ext L) :
    (historyFetches p ds rd hist).length ≤ L.length + historyFailures p ds rd hist ∧
    ∀ r ∈ historyFetches p ds rd hist, ∃ c ∈ L, r = (c.addr, c.size) := by
  obtain ⟨good, bad, k1, k2, k3, k4⟩ := history_good hwf hrd hfit hL
  refine ⟨?_, fun r hr => k4 r (k1.mem_iff.1 hr)⟩
  have hsub : good.map Prod.fst ⊆ L.map Chunk.addr := by
    intro x hx
    obtain ⟨r, hr, rfl⟩ := List.mem_map.1 hx
    obtain ⟨c, hc, rfl⟩ := k4 r (List.mem_append.2 (.inl hr))
    exact List.mem_map_of_mem hc
  have := (List.subperm_of_subset k3 hsub).length_le
  rw [k1.length_eq, List.length_append]
  simp only [List.length_map] at this
  omega

/-- C81: no range is read twice over the life of the reader, when no call fails. -/
theorem C81_once {p : Profile} {ds : Dataset} {rd : CacheReader} {L : List Chunk}
    {hist : List Call} (hwf : WF p ds) (hrd : CacheReader.withDataset p ds = ok rd)
    (hfit : ∀ c ∈ hist, EndsFit ds c.ext) (hL : ∀ c ∈ hist, FitsCache p ds c.ext L)
    (hok : historyFailures p ds rd hist = 0) :
    ((historyFetches p ds rd hist).map Prod.fst).Nodup := by
  obtain ⟨good, bad, k1, k2, k3, -⟩ := history_good hwf hrd hfit hL
  rw [hok, Nat.le_zero, List.length_eq_zero_iff] at k2
  subst k2
  rw [List.append_nil] at k1
  exact (k1.map _).nodup_iff.2 k3

/-- C81: a range is read at most once more than calls fail. -/
theorem C81_count {p : Profile} {ds : Dataset} {rd : CacheReader} {L : List Chunk}
    {hist : List Call} (hwf : WF p ds) (hrd : CacheReader.withDataset p ds = ok rd)
    (hfit : ∀ c ∈ hist, EndsFit ds c.ext) (hL : ∀ c ∈ hist, FitsCache p ds c.ext L) (a : Nat) :
    ((historyFetches p ds rd hist).map Prod.fst).count a ≤ 1 + historyFailures p ds rd hist := by
  obtain ⟨good, bad, k1, k2, k3, -⟩ := history_good hwf hrd hfit hL
  rw [(k1.map Prod.fst).count_eq, List.map_append, List.count_append]
  have h1 := List.nodup_iff_count_le_one.1 k3 a
  have h2 : (bad.map Prod.fst).count a ≤ bad.length := by
    simpa using List.count_le_length (a := a) (l := bad.map Prod.fst)
  omega

/-! ## Concrete cases -/

/-- A call that reads the top rows of the demonstration dataset. -/
def topCall : Call := ⟨Demo.io, Demo.file, topRows, List.replicate 16 0⟩

/-- The same while the file cannot be read. -/
def brokenCall : Call := ⟨Demo.io, [], topRows, List.replicate 16 0⟩

/-- However often the top rows are read: two ranges, plus one for each failure. -/
example (p : Profile) (rd : CacheReader) (hrd : CacheReader.withDataset p Demo.ds = ok rd) (n m : Nat) :
    let hist := List.replicate n brokenCall ++ List.replicate m topCall
    (historyFetches p Demo.ds rd hist).length ≤
      Demo.ds.chunks.length + historyFailures p Demo.ds rd hist :=
  (C81 (Demo.wf p) hrd
    (fun c hc => by
      rcases List.mem_append.1 hc with h | h <;> rw [(List.mem_replicate.1 h).2] <;> exact topRows_fit)
    (fun c hc => by
      rcases List.mem_append.1 hc with h | h <;> rw [(List.mem_replicate.1 h).2] <;>
        exact topRows_cache p)).1

/-- One failing call and three that succeed: the chunk whose reading failed is read again, nothing
else is. -/
example : (CacheReader.withDataset .debug Demo.ds >>= fun rd =>
    ok (historyFetches .debug Demo.ds rd [brokenCall, topCall, topCall, topCall],
      historyFailures .debug Demo.ds rd [brokenCall, topCall, topCall, topCall])) =
    ok ([(9, 9), (9, 9), (0, 9)], 1) := by decide +kernel

end Hidefix.Props
