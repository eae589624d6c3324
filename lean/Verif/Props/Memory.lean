import Verif.Props.Poll
import Verif.Props.Unsteady
import Verif.Proofs.Serde
import Verif.Props.XdrTypes

/-!
# C74: how much the chunk caches hold

"The maximum cache size in bytes. Will not be lower than the size of one chunk" (src/reader/stream.rs:25,
the same limit src/reader/cache.rs:21). The caches count chunks, not bytes.
-/

namespace Hidefix
open Outcome Spec Proofs

/-- The bytes of the chunks in a cache. -/
def Lru.held (c : Lru) : Nat := (c.entries.map fun e => e.2.length).sum

/-- The bytes of the chunks a suspended stream keeps. -/
def Gen.held : Gen → Nat
  | .running c _ => c.held
  | _ => 0

/-- The stream after polls that met the file as the list says. -/
def Gen.after (p : Profile) (rt : Rt) (io : Io) (ds : Dataset) (csz : Nat) (factor : Outcome Nat)
    (conv : List Byte → Outcome (List Byte)) (disks : List (Option (List Byte))) (g : Gen) : Gen :=
  disks.foldl (fun g f => (g.poll p rt io ds csz factor conv f).2.1) g

/-- Every chunk that is stored without compression takes at most the size of a chunk in the file. -/
def StoredWithin (ds : Dataset) (csz : Nat) : Prop :=
  ds.gzip = none → ∀ c ∈ ds.chunks, c.size ≤ csz

end Hidefix

namespace Hidefix.Props
open Hidefix Hidefix.Spec Hidefix.Proofs Outcome

/-- At most `cap` chunks of at most `len` bytes each. -/
structure Bounded (cap len : Nat) (c : Lru) : Prop where
  cap_eq : c.cap = cap
  count : c.entries.length ≤ cap
  size : ∀ e ∈ c.entries, e.2.length ≤ len

theorem Bounded.held {cap len : Nat} {c : Lru} (h : Bounded cap len c) : c.held ≤ cap * len := by
  have : ∀ l : List (Nat × List Byte), (∀ e ∈ l, e.2.length ≤ len) →
      (l.map fun e => e.2.length).sum ≤ l.length * len := by
    intro l
    induction l with
    | nil => simp
    | cons a l ih =>
      intro h
      have h1 := h a (by simp)
      have h2 := ih fun e he => h e (by simp [he])
      simp only [List.map_cons, List.sum_cons, List.length_cons, Nat.add_mul, Nat.one_mul]
      omega
  exact (this _ h.size).trans (Nat.mul_le_mul_right _ h.count)

theorem Bounded.get {cap len k : Nat} {c c' : Lru} {v : List Byte} (h : Bounded cap len c)
    (hg : c.get k = some (v, c')) : Bounded cap len c' := by
  unfold Lru.get at hg
  split at hg
  · rename_i e hf
    obtain ⟨-, rfl⟩ := Prod.mk.inj (Option.some.inj hg)
    have hm := List.mem_of_find?_eq_some hf
    have hk : (e.1 == k) = true := by simpa using List.find?_some hf
    refine ⟨h.cap_eq, ?_, ?_⟩
    · have : (c.entries.filter fun e => e.1 != k).length < c.entries.length := by
        rw [List.length_filter_lt_length_iff_exists]
        exact ⟨e, hm, by simpa using hk⟩
      have := h.count
      simp only [List.length_cons]
      omega
    · intro a ha
      rcases List.mem_cons.1 ha with rfl | ha
      · exact h.size _ hm
      · exact h.size _ (List.mem_filter.1 ha).1
  · cases hg

theorem Bounded.put {cap len k : Nat} {c : Lru} {v : List Byte} (h : Bounded cap len c)
    (hv : v.length ≤ len) : Bounded cap len (c.put k v) := by
  refine ⟨h.cap_eq, ?_, ?_⟩
  · simp only [Lru.put, List.length_take, h.cap_eq]
    omega
  · intro a ha
    rcases List.mem_cons.1 (List.mem_of_mem_take ha) with rfl | ha
    · exact hv
    · exact h.size _ (List.mem_filter.1 ha).1

/-! ## What decoding gives -/

theorem decodeChunk_length {p : Profile} {inflate : List Byte → Option (List Byte)} {raw v : List Byte}
    {csz dsz : Nat} {gz sh : Bool} (h : decodeChunk p inflate raw csz dsz gz sh = ok v) :
    v.length = if gz then csz else raw.length := by
  unfold decodeChunk at h
  obtain ⟨_, -, h⟩ := bind_eq_ok.1 h
  have hcl : ∃ c : List Byte, c.length = (if gz then csz else raw.length) ∧
      (if (sh && decide (1 < dsz)) = true then unshuffleSized c dsz else ok c) = ok v := by
    dsimp only at h
    cases gz with
    | false => exact ⟨raw, by simp, by simpa using h⟩
    | true =>
      simp only [if_true] at h ⊢
      obtain ⟨_, -, h⟩ := bind_eq_ok.1 h
      obtain ⟨c, hc, h⟩ := bind_eq_ok.1 h
      refine ⟨c, ?_, h⟩
      unfold decompress at hc
      split at hc
      · cases hc
      · split at hc
        · rename_i d hd hle
          obtain rfl := Outcome.ok.inj hc
          simp only [List.length_append, List.length_drop, List.length_replicate] at hle ⊢
          omega
        · cases hc
  obtain ⟨c, hcl, h⟩ := hcl
  rw [← hcl]
  split at h
  · rcases unshuffleSized_okp c dsz with ⟨d, h1, h2⟩ | ⟨f, h1⟩
    · rw [h1] at h
      rw [← Outcome.ok.inj h, h2]
    · rw [h1] at h; cases h
  · rw [Outcome.ok.inj h]

theorem readRaw_length {file raw : List Byte} {addr size : Nat} (h : readRaw file addr size = ok raw) :
    raw.length = size := by
  rw [readRaw] at h
  split at h
  · cases h
  · split at h
    · rw [← Outcome.ok.inj h, List.length_take, List.length_drop]; omega
    · split at h
      · rename_i hs; rw [← Outcome.ok.inj h, hs]; rfl
      · cases h

theorem readChunk_length {p : Profile} {io : Io} {file v : List Byte} {addr size csz dsz : Nat}
    {gz sh : Bool} (h : readChunk p io file addr size csz dsz gz sh = ok v) :
    v.length = if gz then csz else size := by
  unfold readChunk at h
  obtain ⟨_, -, h⟩ := bind_eq_ok.1 h
  obtain ⟨raw, hr, h⟩ := bind_eq_ok.1 h
  rw [decodeChunk_length h, readRaw_length hr]

theorem readChunkTokio_length {p : Profile} {rt : Rt} {io : Io} {file v : List Byte}
    {addr size csz dsz : Nat} {gz sh : Bool}
    (h : readChunkTokio p rt io file addr size csz dsz gz sh = ok v) :
    v.length = if gz then csz else size := by
  unfold readChunkTokio at h
  obtain ⟨_, -, h⟩ := bind_eq_ok.1 h
  obtain ⟨raw, hr, h⟩ := bind_eq_ok.1 h
  rw [← readRaw_length hr]
  cases rt with
  | currentThread => cases h
  | _ => exact decodeChunk_length h

/-! ## The caching reader -/

theorem cacheStep_bounded {p : Profile} {io : Io} {file : List Byte} {ds : Dataset} {csz cap : Nat}
    {s s' : CacheSt} {it : Item} (hin : StoredWithin ds csz) (hit : it.chunk ∈ ds.chunks)
    (hb : Bounded cap csz s.cache) (h : cacheStep p io file ds csz s it = ok s') :
    Bounded cap csz s'.cache := by
  unfold cacheStep at h
  obtain ⟨start, -, h⟩ := bind_eq_ok.1 h
  obtain ⟨stop, -, h⟩ := bind_eq_ok.1 h
  obtain ⟨_, -, h⟩ := bind_eq_ok.1 h
  obtain ⟨sz, -, h⟩ := bind_eq_ok.1 h
  cases hg : s.cache.get it.chunk.addr with
  | some x =>
    obtain ⟨cache, lru⟩ := x
    rw [hg] at h
    dsimp only at h
    obtain ⟨_, -, h⟩ := bind_eq_ok.1 h
    obtain ⟨_, -, h⟩ := bind_eq_ok.1 h
    obtain ⟨src, -, h⟩ := bind_eq_ok.1 h
    obtain ⟨dst, -, h⟩ := bind_eq_ok.1 h
    rw [← Outcome.ok.inj h]
    exact hb.get hg
  | none =>
    rw [hg] at h
    dsimp only at h
    obtain ⟨cache, hr, h⟩ := bind_eq_ok.1 h
    obtain ⟨_, -, h⟩ := bind_eq_ok.1 h
    obtain ⟨_, -, h⟩ := bind_eq_ok.1 h
    obtain ⟨src, -, h⟩ := bind_eq_ok.1 h
    obtain ⟨dst, -, h⟩ := bind_eq_ok.1 h
    rw [← Outcome.ok.inj h]
    refine hb.put ?_
    rw [readChunk_length hr]
    cases hgz : ds.gzip with
    | some _ => simp
    | none => simpa using hin hgz _ hit

theorem readToU_bounded {p : Profile} {io : Io} {disk : Disk} {ds : Dataset} {cap : Nat}
    {rd : CacheReader} (hin : StoredWithin ds rd.chunkSz) (hb : Bounded cap rd.chunkSz rd.cache)
    (ext : Extents) (dst : List Byte) :
    (rd.readToU p io disk ds ext dst).2.2.chunkSz = rd.chunkSz ∧
    Bounded cap rd.chunkSz (rd.readToU p io disk ds ext dst).2.2.cache := by
  unfold CacheReader.readToU
  dsimp only
  split
  · rename_i vsz t hpre
    refine ⟨rfl, ?_⟩
    obtain ⟨v, -, h⟩ := bind_eq_ok.1 hpre
    obtain ⟨_, -, h⟩ := bind_eq_ok.1 h
    obtain ⟨t', ht, h⟩ := bind_eq_ok.1 h
    obtain ⟨-, rfl⟩ := Prod.mk.inj (Outcome.ok.inj h)
    refine loop_inv _ (fun s : CacheSt × Nat => Bounded cap rd.chunkSz s.1.cache) t'.items ?_ _ hb
    rintro ⟨s, k⟩ it hit ⟨s', k'⟩ hs h
    have hm := chunkSlices_mem ht it hit
    unfold unsteady at h
    split at h
    · obtain ⟨x, hx, h⟩ := bind_eq_ok.1 h
      obtain ⟨rfl, -⟩ := Prod.mk.inj (Outcome.ok.inj h)
      exact cacheStep_bounded hin hm hs hx
    · split at h
      · cases h
      · obtain ⟨x, hx, h⟩ := bind_eq_ok.1 h
        obtain ⟨rfl, -⟩ := Prod.mk.inj (Outcome.ok.inj h)
        exact cacheStep_bounded hin hm hs hx
  · exact ⟨rfl, hb⟩

theorem afterReadsU_bounded {p : Profile} {io : Io} {ds : Dataset} {cap : Nat}
    (h : List (Disk × Extents × List Byte)) (rd : CacheReader) (hin : StoredWithin ds rd.chunkSz)
    (hb : Bounded cap rd.chunkSz rd.cache) :
    Bounded cap rd.chunkSz (afterReadsU p io ds rd h).cache := by
  induction h generalizing rd with
  | nil => exact hb
  | cons a h ih =>
    obtain ⟨k, e, d⟩ := a
    obtain ⟨h1, h2⟩ := readToU_bounded (p := p) (io := io) (disk := k) hin hb e d
    have := ih (rd.readToU p io k ds e d).2.2 (by rw [h1]; exact hin) (by rw [h1]; exact h2)
    rw [h1] at this
    exact this

theorem cap_mul_le (csz : Nat) : max (33554432 / csz) 1 * csz ≤ max 33554432 csz := by
  generalize 33554432 = n
  have h1 : n / csz * csz ≤ n := Nat.div_mul_le_self n csz
  rcases Nat.le_total (n / csz) 1 with h | h
  · rw [Nat.max_eq_right h]; omega
  · rw [Nat.max_eq_left h]; omega

/-- C74, the caching reader: whatever was read before, with whatever outcomes, and whatever the file was
and did at every single operation, the cache holds at most 32 MiB, or one chunk. -/
theorem C74_cache {p : Profile} {io : Io} {ds : Dataset} {rd : CacheReader}
    (hrd : CacheReader.withDataset p ds = ok rd) (hin : StoredWithin ds rd.chunkSz)
    (hist : List (Disk × Extents × List Byte)) :
    (afterReadsU p io ds rd hist).cache.held ≤ max (32 * 1024 * 1024) rd.chunkSz := by
  obtain ⟨h1, -, h3, -, -⟩ := withDataset_inv (io := io) (file := []) hrd
  have hb : Bounded (max (33554432 / rd.chunkSz) 1) rd.chunkSz rd.cache :=
    ⟨h3, by rw [h1]; exact Nat.zero_le _, by rw [h1]; intro e he; cases he⟩
  exact (afterReadsU_bounded hist rd hin hb).held.trans (cap_mul_le _)

/-! ## Streams -/

theorem streamItem_bounded {p : Profile} {rt : Rt} {io : Io} {file : List Byte} {ds : Dataset}
    {csz cap x : Nat} {conv : List Byte → Outcome (List Byte)} {lru lru' : Lru} {b : BSlice}
    {src : List Byte} (hin : ds.gzip = none → b.size ≤ csz)
    (hconv : ∀ l v, conv l = ok v → v.length ≤ x * l.length)
    (hb : Bounded cap (x * csz) lru)
    (h : streamItem p rt io file ds csz (ok x) conv lru b = ok (src, lru')) :
    Bounded cap (x * csz) lru' := by
  unfold streamItem at h
  rw [ok_bind] at h
  obtain ⟨start, -, h⟩ := bind_eq_ok.1 h
  obtain ⟨stop, -, h⟩ := bind_eq_ok.1 h
  obtain ⟨_, -, h⟩ := bind_eq_ok.1 h
  cases hg : lru.get b.addr with
  | some y =>
    obtain ⟨cache, lru1⟩ := y
    rw [hg] at h
    dsimp only at h
    obtain ⟨_, -, h⟩ := bind_eq_ok.1 h
    obtain ⟨_, -, h⟩ := bind_eq_ok.1 h
    obtain ⟨s, -, h⟩ := bind_eq_ok.1 h
    rw [← (Prod.mk.inj (Outcome.ok.inj h)).2]
    exact hb.get hg
  | none =>
    rw [hg] at h
    dsimp only at h
    obtain ⟨raw, hr, h⟩ := bind_eq_ok.1 h
    obtain ⟨cache, hc, h⟩ := bind_eq_ok.1 h
    obtain ⟨_, -, h⟩ := bind_eq_ok.1 h
    obtain ⟨_, -, h⟩ := bind_eq_ok.1 h
    obtain ⟨s, -, h⟩ := bind_eq_ok.1 h
    rw [← (Prod.mk.inj (Outcome.ok.inj h)).2]
    refine hb.put ((hconv _ _ hc).trans (Nat.mul_le_mul_left _ ?_))
    rw [readChunkTokio_length hr]
    cases hgz : ds.gzip with
    | some _ => simp
    | none => simpa using hin hgz

/-- A generator whose cache is bounded and whose remaining slices are of chunks of the dataset. -/
structure GenOk (ds : Dataset) (csz cap len : Nat) (g : Gen) : Prop where
  fresh : ∀ k l, g = .fresh k l → k = cap
  running : ∀ c l, g = .running c l → Bounded cap len c
  rest : ds.gzip = none → ∀ b ∈ g.rest, b.size ≤ csz

theorem resume_genOk {p : Profile} {rt : Rt} {io : Io} {file : List Byte} {ds : Dataset}
    {csz cap x : Nat} {conv : List Byte → Outcome (List Byte)} {lru : Lru} {slices : List BSlice}
    (hconv : ∀ l v, conv l = ok v → v.length ≤ x * l.length)
    (hb : Bounded cap (x * csz) lru) (hin : ds.gzip = none → ∀ b ∈ slices, b.size ≤ csz) :
    GenOk ds csz cap (x * csz) (Gen.resume p rt io ds csz (ok x) conv file lru slices).2.1 := by
  cases slices with
  | nil => exact ⟨by simp [Gen.resume], by simp [Gen.resume], by simp [Gen.resume, Gen.rest]⟩
  | cons b bs =>
    unfold Gen.resume
    dsimp only
    cases hi : streamItem p rt io file ds csz (ok x) conv lru b with
    | ok y =>
      obtain ⟨src, lru'⟩ := y
      refine ⟨by simp, ?_, fun hg a ha => hin hg a (List.mem_cons_of_mem _ ha)⟩
      intro c l h
      obtain ⟨rfl, -⟩ := Gen.running.inj h
      exact streamItem_bounded (fun hg => hin hg b (by simp)) hconv hb hi
    | _ => exact ⟨by simp, by simp, by simp [Gen.rest]⟩

theorem poll_genOk {p : Profile} {rt : Rt} {io : Io} {file : Option (List Byte)} {ds : Dataset}
    {csz cap x : Nat} {conv : List Byte → Outcome (List Byte)} {g : Gen}
    (hconv : ∀ l v, conv l = ok v → v.length ≤ x * l.length)
    (h : GenOk ds csz cap (x * csz) g) :
    GenOk ds csz cap (x * csz) (g.poll p rt io ds csz (ok x) conv file).2.1 := by
  have hend : GenOk ds csz cap (x * csz) .ended := ⟨by simp, by simp, by simp [Gen.rest]⟩
  cases g with
  | fresh k l =>
    cases file with
    | none => exact hend
    | some f =>
      refine resume_genOk hconv ⟨h.fresh _ _ rfl, by simp, by simp⟩ h.rest
  | running c l =>
    cases file with
    | some f => exact resume_genOk hconv (h.running _ _ rfl) h.rest
    | none =>
      cases l with
      | nil => exact hend
      | cons b bs =>
        unfold Gen.poll
        dsimp only
        split
        · exact resume_genOk hconv (h.running _ _ rfl) h.rest
        · exact hend
  | ended => exact hend
  | broken o => exact h

theorem after_genOk {p : Profile} {rt : Rt} {io : Io} {ds : Dataset}
    {csz cap x : Nat} {conv : List Byte → Outcome (List Byte)}
    (hconv : ∀ l v, conv l = ok v → v.length ≤ x * l.length)
    (disks : List (Option (List Byte))) (g : Gen) (h : GenOk ds csz cap (x * csz) g) :
    GenOk ds csz cap (x * csz) (g.after p rt io ds csz (ok x) conv disks) := by
  induction disks generalizing g with
  | nil => exact h
  | cons f fs ih => exact ih _ (poll_genOk hconv h)

theorem streamNew_genOk {p : Profile} {ds : Dataset} {ext : Extents} {csz : Nat} {g : Gen} (len : Nat)
    (h : streamNew p ds ext = ok (csz, g)) (hin : StoredWithin ds csz) :
    GenOk ds csz (max (33554432 / csz) 1) len g := by
  have hs := fun i b => streamNew_slice (i := i) (b := b) h
  unfold streamNew at h
  obtain ⟨c, h1, h⟩ := bind_eq_ok.1 h
  obtain ⟨slices, h2, h⟩ := bind_eq_ok.1 h
  obtain ⟨cap, h3, h⟩ := bind_eq_ok.1 h
  obtain ⟨rfl, rfl⟩ := Prod.mk.inj (Outcome.ok.inj h)
  obtain ⟨-, h4⟩ := lruCap_pos h3
  refine ⟨?_, by simp, ?_⟩
  · intro k l hk
    rw [← (Gen.fresh.inj hk).1, h4]
  · intro hg b hb
    obtain ⟨i, hi⟩ := List.getElem?_of_mem hb
    obtain ⟨t, it, ht, hit, hr⟩ := hs i b hi
    rw [(Prod.mk.inj hr).2]
    exact hin hg _ (chunkSlices_mem ht it (List.mem_of_getElem? hit))

theorem GenOk.held {ds : Dataset} {csz cap len : Nat} {g : Gen} (h : GenOk ds csz cap len g) :
    g.held ≤ cap * len := by
  cases g with
  | running c l => exact (h.running c l rfl).held
  | _ => exact Nat.zero_le _

/-- C74, `StreamReader::stream`: however far the stream was consumed and whatever happened, it holds at
most 32 MiB, or one chunk. -/
theorem C74_stream {p : Profile} {rt : Rt} {io : Io} {ds : Dataset} {ext : Extents} {csz : Nat} {g : Gen}
    (h : streamNew p ds ext = ok (csz, g)) (hin : StoredWithin ds csz)
    (disks : List (Option (List Byte))) :
    (g.after p rt io ds csz (ok 1) ok disks).held ≤ max (32 * 1024 * 1024) csz := by
  have h1 := after_genOk (p := p) (rt := rt) (io := io) (conv := ok) (x := 1)
    (fun l v hv => by rw [← Outcome.ok.inj hv]; omega) disks g (streamNew_genOk _ h hin)
  rw [Nat.one_mul] at h1
  exact h1.held.trans (cap_mul_le _)

theorem beBytes_len (k v : Nat) : (beBytes k v).length = k := by
  induction k generalizing v with
  | zero => rfl
  | succ k ih => simp [beBytes, ih]

theorem xdrWord_len {h : Host} {t : Prim} {o : ByteOrder} {w v : List Byte}
    (hx : xdrWord h t o w = ok v) : v.length = 4 := by
  unfold xdrWord at hx
  obtain ⟨s, -, hx⟩ := bind_eq_ok.1 hx
  dsimp only at hx
  rw [← Outcome.ok.inj hx]
  generalize widen t (hostVal h s) = n
  cases h <;> simp [toBigEOne, Host.native, hostBytes, swapWord, Prim.isFloat, beBytes_len]

theorem xdrCastSlice_len {h : Host} {t : Prim} {o : ByteOrder} {l v : List Byte}
    (hx : xdrCastSlice h t o l = ok v) : v.length = l.length / t.size * 4 := by
  unfold xdrCastSlice at hx
  obtain ⟨_, -, hx⟩ := bind_eq_ok.1 hx
  obtain ⟨ws, hw, hx⟩ := bind_eq_ok.1 hx
  rw [← Outcome.ok.inj hx]
  have hl := mapM_length _ _ _ hw
  have : ∀ (a : List (List Byte)) (r : List (List Byte)), a.mapM (xdrWord h t o) = ok r →
      ∀ e ∈ r, e.length = 4 := by
    intro a
    induction a with
    | nil => intro r hr; obtain rfl := Outcome.ok.inj hr; simp
    | cons x a ih =>
      intro r hr
      rw [List.mapM_cons] at hr
      obtain ⟨b, hb, hr⟩ := bind_eq_ok.1 hr
      obtain ⟨bs, hbs, hr⟩ := bind_eq_ok.1 hr
      obtain rfl := Outcome.ok.inj hr
      intro e he
      rcases List.mem_cons.1 he with rfl | he
      · exact xdrWord_len hb
      · exact ih bs hbs e he
  rw [flatten_length_const (this _ _ hw), hl]
  simp [words]

theorem toBigESlice_len {h : Host} {t : Prim} {o : ByteOrder} {l : List Byte} :
    (toBigESlice h t o l).length ≤ l.length := by
  cases o with
  | LE =>
    have h1 : ∀ w ∈ (words t.size l).map (swapWord h t), w.length = t.size := by
      intro w hw
      obtain ⟨a, ha, rfl⟩ := List.mem_map.1 hw
      have : (swapWord h t a).length = a.length := by
        unfold swapWord; cases h <;> split <;> simp
      rw [this, words_mem ha]
    unfold toBigESlice
    dsimp only
    rw [flatten_length_const h1, List.length_map]
    simp only [words, List.length_map, List.length_range]
    exact Nat.div_mul_le_self _ _
  | _ => exact le_rfl

theorem toBigESized_len {h : Host} {o : ByteOrder} {n : Nat} {l v : List Byte}
    (hx : toBigESized h l o n = ok v) : v.length ≤ l.length := by
  unfold toBigESized at hx
  split at hx
  · split at hx
    · rw [Outcome.ok.inj hx]
    · obtain ⟨_, -, hx⟩ := bind_eq_ok.1 hx
      rw [← Outcome.ok.inj hx]; exact toBigESlice_len
    · obtain ⟨_, -, hx⟩ := bind_eq_ok.1 hx
      rw [← Outcome.ok.inj hx]; exact toBigESlice_len
    · obtain ⟨_, -, hx⟩ := bind_eq_ok.1 hx
      rw [← Outcome.ok.inj hx]; exact toBigESlice_len
    · cases hx
  · rw [Outcome.ok.inj hx]

theorem xdrFactor_pos {t : Datatype} {x : Nat} (hx : xdrFactor t = ok x) : 0 < x := by
  unfold xdrFactor at hx
  split at hx
  · rw [← Outcome.ok.inj hx]; decide
  · split at hx
    · split at hx
      · cases hx
      · rename_i h1 h2
        rw [← Outcome.ok.inj hx]
        exact Nat.div_pos (by omega) (by omega)
    · rw [← Outcome.ok.inj hx]; decide

theorem xdr_len {h : Host} {t : Datatype} {o : ByteOrder} {l v : List Byte} {x : Nat}
    (hx : xdrFactor t = ok x) (hv : xdr h l t o = ok v) : v.length ≤ x * l.length := by
  have hpos := xdrFactor_pos hx
  have hle : ∀ n, n ≤ l.length → n ≤ x * l.length := fun n hn =>
    hn.trans (Nat.le_mul_of_pos_left _ hpos)
  unfold xdr at hv
  split at hv
  · rw [← Outcome.ok.inj hv]; exact hle _ le_rfl
  · rw [xdrCastSlice_len hv]
    obtain rfl : x = 4 := (Outcome.ok.inj hx).symm
    simp only [Prim.size]; omega
  · rw [xdrCastSlice_len hv]
    obtain rfl : x = 2 := (Outcome.ok.inj hx).symm
    simp only [Prim.size]; omega
  · rw [xdrCastSlice_len hv]
    obtain rfl : x = 4 := (Outcome.ok.inj hx).symm
    simp only [Prim.size]; omega
  · rw [xdrCastSlice_len hv]
    obtain rfl : x = 2 := (Outcome.ok.inj hx).symm
    simp only [Prim.size]; omega
  · exact hle _ (toBigESized_len hv)

/-- C74 with `StreamReader::stream_xdr`: what it holds is bounded by the widened size, `x` times 32 MiB
or one chunk, where `x` is the factor by which XDR widens the elements (4 for 8-bit and 2 for 16-bit
numbers, 1 otherwise). Partial: the bound without the factor is false (`not_C74`). -/
theorem C74_xdr_partial {p : Profile} {rt : Rt} {h : Host} {io : Io} {ds : Dataset} {ext : Extents}
    {csz x : Nat} {g : Gen} (hg : streamNew p ds ext = ok (csz, g)) (hin : StoredWithin ds csz)
    (hx : xdrFactor ds.dtype = ok x) (disks : List (Option (List Byte))) :
    (g.after p rt io ds csz (xdrFactor ds.dtype) (fun c => xdr h c ds.dtype ds.order) disks).held ≤
      x * max (32 * 1024 * 1024) csz := by
  have h1 := after_genOk (p := p) (rt := rt) (io := io) (x := x)
    (conv := fun c => xdr h c ds.dtype ds.order) (fun l v hv => xdr_len hx hv) disks g
    (streamNew_genOk _ hg hin)
  rw [hx]
  have h2 := cap_mul_le csz
  calc _ ≤ max (33554432 / csz) 1 * (x * csz) := h1.held
    _ = x * (max (33554432 / csz) 1 * csz) := by rw [Nat.mul_left_comm]
    _ ≤ _ := Nat.mul_le_mul_left _ h2

/-! ## XDR holds more than 32 MiB -/

/-- 2^25 8-bit numbers in two chunks of 16 MiB. -/
def wide : Dataset :=
  { dtype := .int 1, dsize := 1, order := .LE,
    chunks := [⟨0, 16777216, [0]⟩, ⟨16777216, 16777216, [16777216]⟩],
    shape := [33554432], chunkShape := [16777216], chunkShapeReduced := [16777216],
    scaledDimSz := [1], dimSz := [1], chunkDimSz := [1], shuffle := false, gzip := none }

theorem wide_wf (p : Profile) : WF p wide where
  rank := rfl
  built := by cases p <;> decide +kernel
  grid := by decide +kernel
  pos := by decide
  fits := ⟨by decide, by decide, by decide, by decide⟩

theorem wide_new (p : Profile) : streamNew p wide .all =
    ok (16777216, .fresh 2 [⟨0, 16777216, 0, 16777216⟩, ⟨16777216, 16777216, 0, 16777216⟩]) := by
  have h1 : chunkBytes p wide = ok 16777216 := by cases p <;> decide +kernel
  have h2 : streamSlices p wide .all =
    ok [⟨0, 16777216, 0, 16777216⟩, ⟨16777216, 16777216, 0, 16777216⟩] := by
    cases p <;> decide +kernel
  have h3 : lruCap 16777216 = ok 2 := by decide +kernel
  unfold streamNew
  rw [h1, ok_bind, h2, ok_bind, h3]
  rfl

theorem streamItem_new {p : Profile} {rt : Rt} {io : Io} {file raw cache : List Byte} {ds : Dataset}
    {csz x a b : Nat} {conv : List Byte → Outcome (List Byte)} {lru : Lru} {addr size n : Nat}
    (hg : lru.get addr = none)
    (hr : readChunkTokio p rt io file addr size csz ds.dsize ds.gzip.isSome ds.shuffle = ok raw)
    (hc : conv raw = ok cache) (h1 : mul64 p a x = ok 0) (h2 : mul64 p b x = ok n)
    (hl : cache.length = n) :
    ∃ src, streamItem p rt io file ds csz (ok x) conv lru ⟨addr, size, a, b⟩ =
      ok (src, lru.put addr cache) := by
  unfold streamItem
  dsimp only
  rw [ok_bind, h1, ok_bind, h2, ok_bind, hg]
  dsimp only
  rw [hr, ok_bind, hc, ok_bind]
  have hs : sliceOf cache 0 n = ok cache := by
    rw [sliceOf, if_pos ⟨Nat.zero_le _, hl.ge⟩, List.drop_zero, Nat.sub_zero, ← hl, List.take_length]
  have hd : ∀ {b : Bool}, b = true → debugAssert p b = ok () := by
    rintro _ rfl; cases p <;> rfl
  refine ⟨cache, ?_⟩
  rw [hd (by simp), hd (by simp), hd (by simpa using hl.ge)]
  simp only [ok_bind, hs]

theorem xdr_bytes (h : Host) (l : List Byte) :
    ∃ v, xdr h l (.int 1) .LE = ok v ∧ v.length = l.length * 4 := by
  have hf : (l.map fun b => [b]).flatten = l := by
    induction l with
    | nil => rfl
    | cons a l ih => simp only [List.map_cons, List.flatten_cons, ih]; rfl
  have hes : ∀ e ∈ l.map (fun b => [b]), e.length = (Datatype.int 1).dsize := by
    intro e he
    obtain ⟨b, -, rfl⟩ := List.mem_map.1 he
    rfl
  have h1 := xdr_eq (h := h) (d := .int 1) (o := .LE) (by simp [XdrType]) (.inl (by decide)) hes
  rw [hf] at h1
  refine ⟨_, h1, ?_⟩
  have h2 : ∀ e ∈ (l.map fun b => [b]).map (xdrElem (.int 1) .LE), e.length = 4 := by
    intro e he
    obtain ⟨w, hw, rfl⟩ := List.mem_map.1 he
    obtain ⟨b, -, rfl⟩ := List.mem_map.1 hw
    simp [xdrElem, msFirst]
  rw [flatten_length_const h2]
  simp

theorem wide_read (p : Profile) {rt : Rt} (hrt : rt ≠ .currentThread) (io : Io) {addr : Nat}
    (ha : addr ≤ 16777216) :
    ∃ raw, raw.length = 16777216 ∧
      readChunkTokio p rt io (List.replicate 33554432 0) addr 16777216 16777216 wide.dsize
        wide.gzip.isSome wide.shuffle = ok raw := by
  have hdec : ∀ raw, decodeChunk p io.inflate raw 16777216 1 false false = ok raw := by
    intro raw; cases p <;> rfl
  have hr : ∀ x : Outcome (List Byte), blockInPlace rt x = x := by
    intro x; cases rt <;> first | rfl | exact absurd rfl hrt
  refine ⟨((List.replicate 33554432 (0 : Byte)).drop addr).take 16777216, ?_, ?_⟩
  · rw [List.length_take, List.length_drop, List.length_replicate]; omega
  · unfold readChunkTokio
    have h1 : allocOk 16777216 = ok () := by decide +kernel
    have h2 : readRaw (List.replicate 33554432 (0 : Byte)) addr 16777216 =
        ok (((List.replicate 33554432 (0 : Byte)).drop addr).take 16777216) := by
      rw [readRaw, if_neg (by omega), if_pos (by rw [List.length_replicate]; omega)]
    rw [h1, ok_bind, h2, ok_bind, hr]
    exact hdec _

/-- C74 is false of `StreamReader::stream_xdr`: after two items of a stream of 8-bit numbers in chunks of
16 MiB it holds 128 MiB, on every host and in every build: the capacity is computed from the size of a
chunk before it is widened. -/
theorem not_C74 (p : Profile) (h : Host) {rt : Rt} (hrt : rt ≠ .currentThread) (io : Io) :
    ∃ (ds : Dataset) (ext : Extents) (csz : Nat) (g : Gen) (file : List Byte), WF p ds ∧
      StoredWithin ds csz ∧ csz = 16 * 1024 * 1024 ∧ streamNew p ds ext = ok (csz, g) ∧
      (g.after p rt io ds csz (xdrFactor ds.dtype) (fun c => xdr h c ds.dtype ds.order)
        [some file, some file]).held = 128 * 1024 * 1024 := by
  refine ⟨wide, .all, _, _, List.replicate 33554432 0, wide_wf p, ?_, rfl, wide_new p, ?_⟩
  · intro _ c hc
    simp only [wide, List.mem_cons, List.not_mem_nil, or_false] at hc
    rcases hc with rfl | rfl <;> decide
  · obtain ⟨r1, hr1, hq1⟩ := wide_read p hrt io (addr := 0) (by omega)
    obtain ⟨r2, hr2, hq2⟩ := wide_read p hrt io (addr := 16777216) (by omega)
    obtain ⟨v1, hv1, hl1⟩ := xdr_bytes h r1
    obtain ⟨v2, hv2, hl2⟩ := xdr_bytes h r2
    have hx : xdrFactor wide.dtype = ok 4 := rfl
    have m0 : mul64 p 0 4 = ok 0 := by cases p <;> rfl
    have m1 : mul64 p 16777216 4 = ok 67108864 := by cases p <;> decide +kernel
    rw [hr1] at hl1
    rw [hr2] at hl2
    obtain ⟨s1, e1⟩ := streamItem_new (conv := fun c => xdr h c wide.dtype wide.order)
      (lru := ⟨2, []⟩) (by rfl) hq1 hv1 m0 m1 hl1
    obtain ⟨s2, e2⟩ := streamItem_new (conv := fun c => xdr h c wide.dtype wide.order)
      (lru := Lru.put ⟨2, []⟩ 0 v1) (by rfl) hq2 hv2 m0 m1 hl2
    rw [hx]
    simp only [Gen.after, List.foldl_cons, List.foldl_nil, Gen.poll, Gen.resume, e1, e2]
    simp [Gen.held, Lru.held, Lru.put, hl1, hl2, List.filter]

example (hist : List (Disk × Extents × List Byte)) (io : Io) (rd : CacheReader)
    (h : CacheReader.withDataset .release wide = ok rd) :
    (afterReadsU .release io wide rd hist).cache.held ≤ 33554432 := by
  have h1 : rd.chunkSz = 16777216 := by
    obtain ⟨-, h2, -⟩ := withDataset_inv (io := io) (file := []) h
    have h3 : chunkBytes .release wide = ok 16777216 := by decide +kernel
    rw [h3] at h2
    exact (Outcome.ok.inj h2).symm
  have h4 := C74_cache (io := io) h (by
    intro _ c hc
    rw [h1]
    simp only [wide, List.mem_cons, List.not_mem_nil, or_false] at hc
    rcases hc with rfl | rfl <;> decide) hist
  rw [h1] at h4
  exact h4

example (disks : List (Option (List Byte))) (io : Io) :
    ∃ csz g, streamNew .debug wide .all = ok (csz, g) ∧
    (g.after .debug .none io wide csz (ok 1) ok disks).held ≤ 33554432 :=
  ⟨_, _, wide_new _, C74_stream (wide_new _) (by
    intro _ c hc
    simp only [wide, List.mem_cons, List.not_mem_nil, or_false] at hc
    rcases hc with rfl | rfl <;> decide) disks⟩

example (disks : List (Option (List Byte))) (io : Io) :
    ∃ csz g, streamNew .debug wide .all = ok (csz, g) ∧
    (g.after .debug .none io wide csz (xdrFactor wide.dtype)
      (fun c => xdr .little c wide.dtype wide.order) disks).held ≤ 4 * 33554432 :=
  ⟨_, _, wide_new _, C74_xdr_partial (wide_new _) (by
    intro _ c hc
    simp only [wide, List.mem_cons, List.not_mem_nil, or_false] at hc
    rcases hc with rfl | rfl <;> decide) rfl disks⟩

end Hidefix.Props
