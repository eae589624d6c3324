import Verif.Props.ExactRelease
import Verif.Props.ExactValues
import Verif.Props.ExactPython

/-!
# C24 and C39 in release builds, exactly

As in `Props/ExactRelease.lean`, a read is asked to be right whatever the file stores.
-/

set_option autoImplicit false

namespace Hidefix.Props
open Hidefix Hidefix.Spec Hidefix.Proofs Outcome

/-- A slice that is written lies inside the decoded chunk and has its bytes. -/
theorem fine_ready {ds : Dataset} {N : Nat} {inflate : List Byte → Option (List Byte)} {ext : Extents}
    {start count : List Nat} {file : List Byte} {A : List Nat → List Byte} {n : Nat}
    (hP : Writable inflate ds N) (hset : Setup .release ⟨some file, inflate⟩ file ds A ext start count)
    (hshape : ds.shape ≠ []) (hsize : ∀ n ∈ ds.shape, count.prod + n * ds.chunkShape.prod < 2 ^ 57)
    {items : List Item} (hx : ds.chunkSlices .release ext = ok ⟨items, ok ()⟩)
    (h : FineAll (rawD .release ⟨some file, inflate⟩ file ds (ds.chunkShape.prod * ds.dsize)) ds.dsize n
      items) :
    (items.flatMap (bytesN (rawD .release ⟨some file, inflate⟩ file ds (ds.chunkShape.prod * ds.dsize))
      ds.dsize)).length = total items * ds.dsize := by
  have hn := fine_normal hset.wf hset.sel hset.inb hshape hsize hx hP.elem.1 hP.elem.2 hP.chunk
    hP.chunk (fun c hc v hv => by
      obtain ⟨block, h1, h2, -⟩ := rawD_stores (p := .release) hset.stores hset.sizes hc
      obtain rfl := Outcome.ok.inj (h1.symm.trans hv)
      omega) h
  rw [← flatMap_bytesOf_length (D := rawD .release ⟨some file, inflate⟩ file ds
    (ds.chunkShape.prod * ds.dsize)) (fun it hit => (hn it hit).1) fun it hit => (hn it hit).2.1]
  congr 1
  rw [List.flatMap_def, List.flatMap_def]
  congr 1
  exact List.map_congr_left fun it hit => (hn it hit).2.2

/-- If `Direct::read_to` in a release build fills a zeroed destination of the exact size right, whatever
array a writable (`Spec.Writable`) dataset holds, then the selection satisfies `Spec.Good`. -/
theorem good_of_direct_zero_release {ds : Dataset} {N : Nat} {inflate : List Byte → Option (List Byte)}
    {ext : Extents} {start count : List Nat} {sort : List GItem → List GItem}
    (hP : Writable inflate ds N) (hwf : WF .release ds) (hsel : Selects ext ds.shape start count)
    (hb : InBounds start count ds.shape) (hsort : ∀ l, SortedByAddr l (sort l))
    (hsize : ∀ n ∈ ds.shape, count.prod + n * ds.chunkShape.prod < 2 ^ 57)
    (h : ∀ file A, Setup .release ⟨some file, inflate⟩ file ds A ext start count →
      ∃ n, directReadTo .release ⟨some file, inflate⟩ ds sort ext
        (List.replicate (count.prod * ds.dsize) 0) = (ok n, selected A start count)) :
    Good .release ds start count := by
  by_cases hshape : ds.shape = []
  · exact good_scalar hb hshape
  have hC : ds.chunkShape.prod * ds.dsize < W := Nat.lt_trans hP.chunk (by decide)
  have hD : count.prod * ds.dsize < W :=
    Nat.lt_of_le_of_lt (Nat.mul_le_mul_right _ (count_prod_le hwf hb)) hP.data
  obtain ⟨c₁, hc₁⟩ := chunks_nonempty hwf hb
  obtain ⟨_, hset, -⟩ := marked_setup hP hwf hsel hb hc₁ (prod_pos hwf.pos)
  obtain ⟨n₁, h₁⟩ := h _ _ hset
  obtain ⟨-, -, items, hx⟩ := directReadTo_inv (congrArg Prod.fst h₁)
  have key : ∀ file A, Setup .release ⟨some file, inflate⟩ file ds A ext start count →
      FineAll (rawD .release ⟨some file, inflate⟩ file ds (ds.chunkShape.prod * ds.dsize)) ds.dsize
        (count.prod * ds.dsize) items ∧
      (items.flatMap (bytesN (rawD .release ⟨some file, inflate⟩ file ds
        (ds.chunkShape.prod * ds.dsize)) ds.dsize)).length = total items * ds.dsize ∧
      blit (List.replicate (count.prod * ds.dsize) 0) 0 (items.flatMap
        (bytesN (rawD .release ⟨some file, inflate⟩ file ds (ds.chunkShape.prod * ds.dsize)) ds.dsize))
      = selected A start count := by
    intro file A hset
    obtain ⟨n, hr⟩ := h file A hset
    obtain ⟨i1, i2⟩ := directReadTo_release (dst := List.replicate (count.prod * ds.dsize) 0) hset.addr
      (fun l => (hsort l).1) (chunkBytes_ok hwf hC) hset.opened hx (reqBytes_ok hwf hsel hb hD) (by simp)
      (by simpa using hD)
    have hfine := ((i1 _).1 (congrArg Prod.fst hr)).2
    exact ⟨by simpa using hfine, fine_ready hP hset hshape hsize hx hfine,
      congrArg Prod.snd ((i2 hfine).symm.trans hr)⟩
  have hfull := not_short hP hwf hsel hb (m := total items * ds.dsize)
    fun file A hset => ⟨_, (key file A hset).2⟩
  refine good_of_reads_release hP hwf hsel hb hsize hx (inflate := inflate)
    fun file A hset => ?_
  obtain ⟨k1, k2, k3⟩ := key file A hset
  refine ⟨k1, ?_⟩
  rw [← k3, blit_zero, blit_zero, List.drop_replicate, List.drop_replicate, k2,
    Nat.sub_eq_zero_of_le hfull, List.replicate_zero, List.replicate_zero]

theorem direct_zero_length_release {ds : Dataset} {N : Nat} {inflate : List Byte → Option (List Byte)}
    {ext : Extents} {start count : List Nat} {sort : List GItem → List GItem} {file : List Byte}
    {A : List Nat → List Byte} (hP : Writable inflate ds N) (hsort : ∀ l, SortedByAddr l (sort l))
    (hset : Setup .release ⟨some file, inflate⟩ file ds A ext start count) {n : Nat} {d : List Byte}
    (h : directReadTo .release ⟨some file, inflate⟩ ds sort ext
      (List.replicate (count.prod * ds.dsize) 0) = (ok n, d)) : d.length = count.prod * ds.dsize := by
  have hC : ds.chunkShape.prod * ds.dsize < W := Nat.lt_trans hP.chunk (by decide)
  have hD : count.prod * ds.dsize < W :=
    Nat.lt_of_le_of_lt (Nat.mul_le_mul_right _ (count_prod_le hset.wf hset.inb)) hP.data
  obtain ⟨-, -, items, hx⟩ := directReadTo_inv (congrArg Prod.fst h)
  obtain ⟨i1, i2⟩ := directReadTo_release (dst := List.replicate (count.prod * ds.dsize) 0) hset.addr
    (fun l => (hsort l).1) (chunkBytes_ok hset.wf hC) hset.opened hx
    (reqBytes_ok hset.wf hset.sel hset.inb hD) (by simp) (by simpa using hD)
  have hfine := ((i1 _).1 (congrArg Prod.fst h)).2
  have hlen : (items.flatMap (bytesN (rawD .release ⟨some file, inflate⟩ file ds
      (ds.chunkShape.prod * ds.dsize)) ds.dsize)).length = total (items.map (normI ds.dsize)) := by
    have := flatMap_bytesOf_length (dsz := 1) (items := items.map (normI ds.dsize))
      (fun it hit => (hfine.1 it hit).1) fun it hit => (hfine.1 it hit).2
    rw [Nat.mul_one, List.flatMap_map] at this
    exact this
  have e := congrArg Prod.snd ((i2 hfine).symm.trans h)
  simp only at e
  have := hfine.2
  rw [← e, blit_length, List.length_replicate]
  omega

/-- The readers that agree with `Direct::read_to` when they succeed. -/
theorem good_of_agreeing_release {ds : Dataset} {N : Nat}
    {inflate : List Byte → Option (List Byte)} {ext : Extents} {start count : List Nat}
    (hP : Writable inflate ds N) (hwf : WF .release ds) (hsel : Selects ext ds.shape start count)
    (hb : InBounds start count ds.shape)
    (hsize : ∀ n ∈ ds.shape, count.prod + n * ds.chunkShape.prod < 2 ^ 57)
    (h : ∀ file A, Setup .release ⟨some file, inflate⟩ file ds A ext start count →
      ∃ rd : ByteReader, (∀ n d, rd ext (List.replicate (count.prod * ds.dsize) 0) = (ok n, d) →
          directReadTo .release ⟨some file, inflate⟩ ds sortByAddr ext
            (List.replicate (count.prod * ds.dsize) 0) = (ok n, d)) ∧
        ((∀ n d, rd ext (List.replicate (count.prod * ds.dsize) 0) = (ok n, d) →
            d.length = count.prod * ds.dsize) →
          ∃ n, rd ext (List.replicate (count.prod * ds.dsize) 0) = (ok n, selected A start count))) :
    Good .release ds start count := by
  refine good_of_direct_zero_release hP hwf hsel hb sortByAddr_ok hsize (inflate := inflate)
    fun file A hset => ?_
  obtain ⟨rd, h1, h2⟩ := h file A hset
  obtain ⟨n, hn⟩ := h2 fun n d hd => direct_zero_length_release hP sortByAddr_ok hset (h1 n d hd)
  exact ⟨n, h1 n _ hn⟩

/-- C24 for the direct reader in a release build, exactly: for a writable (`Spec.Writable`) dataset, `values` returns
the selected elements whatever array the file stores if and only if the selection
satisfies `Spec.Good`. -/
theorem C24_exact_direct_release {hst : Host} {t : Prim} {ds : Dataset} {N : Nat}
    {inflate : List Byte → Option (List Byte)} {ext : Extents} {start count : List Nat}
    {sort : List GItem → List GItem} (hP : Writable inflate ds N) (hwf : WF .release ds)
    (hsel : Selects ext ds.shape start count) (hb : InBounds start count ds.shape)
    (hsort : ∀ l, SortedByAddr l (sort l)) (ht : t.size = ds.dsize)
    (hs : Swaps hst t ∨ ds.order ≠ .LE) (hmem : count.prod * ds.dsize < 2 ^ 63)
    (hsize : ∀ n ∈ ds.shape, count.prod + n * ds.chunkShape.prod < 2 ^ 57) :
    (∀ file A, Setup .release ⟨some file, inflate⟩ file ds A ext start count →
      RightValues .release hst t ds (directReadTo .release ⟨some file, inflate⟩ ds sort) ext A start
        count) ↔
    Good .release ds start count := by
  constructor
  · intro h
    refine good_of_agreeing_release hP hwf hsel hb hsize (inflate := inflate)
      fun file A hset => ⟨_, fun n d hd => ?_, fun hlen => read_of_values hset ht hs hlen (h file A hset)⟩
    obtain ⟨res, hres⟩ := par_exists .release ⟨some file, inflate⟩ ds sortByAddr ext
      (List.replicate (count.prod * ds.dsize) 0)
    have hW : (List.replicate (count.prod * ds.dsize) (0 : Byte)).length < W := by
      rw [List.length_replicate]; exact Nat.lt_trans hmem (by decide)
    obtain ⟨a1, a2⟩ := C13 (sort' := sort) hset.addr hset.opened sortByAddr_ok hsort _ hW res hres
    obtain ⟨b1, b2⟩ := C13 (sort' := sortByAddr) hset.addr hset.opened sortByAddr_ok sortByAddr_ok _ hW
      res hres
    have hok := (a1 n).2 (congrArg Prod.fst hd)
    rw [← b2 n hok, a2 n hok, hd]
  · intro hg
    exact fun file A hset => C24_direct_partial hset hg hsort ht hs hmem

/-- C24 for the caching reader with any history in a release build, exactly. -/
theorem C24_exact_cache_release {hst : Host} {t : Prim} {ds : Dataset} {N : Nat}
    {inflate : List Byte → Option (List Byte)} {ext : Extents} {start count : List Nat}
    {cr : CacheReader} (hP : Writable inflate ds N) (hwf : WF .release ds)
    (hsel : Selects ext ds.shape start count) (hb : InBounds start count ds.shape)
    (hrd : CacheReader.withDataset .release ds = ok cr) (hist : List (Extents × List Byte))
    (ht : t.size = ds.dsize)
    (hs : Swaps hst t ∨ ds.order ≠ .LE) (hmem : count.prod * ds.dsize < 2 ^ 63)
    (hsize : ∀ n ∈ ds.shape, count.prod + n * ds.chunkShape.prod < 2 ^ 57) :
    (∀ file A, Setup .release ⟨some file, inflate⟩ file ds A ext start count →
      RightValues .release hst t ds (fun e d =>
        (((afterReads .release ⟨some file, inflate⟩ file ds cr hist).readTo .release
            ⟨some file, inflate⟩ file ds e d).1,
         ((afterReads .release ⟨some file, inflate⟩ file ds cr hist).readTo .release
            ⟨some file, inflate⟩ file ds e d).2.1)) ext A start count) ↔
    Good .release ds start count := by
  constructor
  · intro h
    refine good_of_agreeing_release hP hwf hsel hb hsize (inflate := inflate)
      fun file A hset => ⟨_, fun n d hd => ?_, fun hlen => read_of_values hset ht hs hlen (h file A hset)⟩
    obtain ⟨res, hres⟩ := par_exists .release ⟨some file, inflate⟩ ds sortByAddr ext
      (List.replicate (count.prod * ds.dsize) 0)
    have hW : (List.replicate (count.prod * ds.dsize) (0 : Byte)).length < W := by
      rw [List.length_replicate]; exact Nat.lt_trans hmem (by decide)
    obtain ⟨a1, -, a3⟩ := C12_destination (sort' := sortByAddr) hset.addr hset.opened sortByAddr_ok
      sortByAddr_ok hrd hist _ hW res hres
    obtain ⟨e1, e2⟩ := Prod.mk.inj hd
    have hok := (a1 n).1 e1
    exact Prod.ext hok ((a3 n hok).1.symm.trans e2)
  · intro hg
    exact fun file A hset => C24_cache_partial hset hg hrd hist ht hs hmem

/-- C24 for the parallel reads in a release build, exactly: `values_par` returns the selected elements for
every schedule. -/
theorem C24_exact_par_release {hst : Host} {t : Prim} {ds : Dataset} {N : Nat}
    {inflate : List Byte → Option (List Byte)} {ext : Extents} {start count : List Nat}
    {sort : List GItem → List GItem} (hP : Writable inflate ds N) (hwf : WF .release ds)
    (hsel : Selects ext ds.shape start count) (hb : InBounds start count ds.shape)
    (hsort : ∀ l, SortedByAddr l (sort l)) (ht : t.size = ds.dsize)
    (hs : Swaps hst t ∨ ds.order ≠ .LE) (hmem : count.prod * ds.dsize < 2 ^ 63)
    (hsize : ∀ n ∈ ds.shape, count.prod + n * ds.chunkShape.prod < 2 ^ 57) :
    (∀ file A, Setup .release ⟨some file, inflate⟩ file ds A ext start count →
      ∀ rd : ByteReader, (∀ dst, DirectReadToPar .release ⟨some file, inflate⟩ ds sort ext dst
          (rd ext dst)) →
        RightValues .release hst t ds rd ext A start count) ↔
    Good .release ds start count := by
  constructor
  · intro h
    refine good_of_agreeing_release hP hwf hsel hb hsize (inflate := inflate) fun file A hset => ?_
    obtain ⟨rd, h1, h2⟩ := some_schedule (p := .release) (inflate := inflate) (file := file) hset.addr
      hsort
    exact ⟨rd, fun n d hd => h2 ext _ n d (by
      rw [List.length_replicate]; exact Nat.lt_trans hmem (by decide)) hd,
      fun hlen => read_of_values hset ht hs hlen (h file A hset rd (h1 ext))⟩
  · intro hg file A hset rd hrd
    obtain ⟨vs, h1, h2, h3, -⟩ := C24_par_partial hset hg hsort hrd ht hs hmem
    exact ⟨vs, h1, h2, h3⟩

/-- C24 for `values_dyn_par` in a release build, exactly. -/
theorem C24_exact_dyn_par_release {hst : Host} {t : Prim} {ds : Dataset} {N : Nat}
    {inflate : List Byte → Option (List Byte)} {ext : Extents} {start count : List Nat}
    {sort : List GItem → List GItem} (hP : Writable inflate ds N) (hwf : WF .release ds)
    (hsel : Selects ext ds.shape start count) (hb : InBounds start count ds.shape)
    (hsort : ∀ l, SortedByAddr l (sort l)) (ht : t.size = ds.dsize)
    (hs : Swaps hst t ∨ ds.order ≠ .LE) (hmem : count.prod * ds.dsize < 2 ^ 63)
    (hsize : ∀ n ∈ ds.shape, count.prod + n * ds.chunkShape.prod < 2 ^ 57) :
    (∀ file A, Setup .release ⟨some file, inflate⟩ file ds A ext start count →
      ∀ rd : ByteReader, (∀ dst, DirectReadToPar .release ⟨some file, inflate⟩ ds sort ext dst
          (rd ext dst)) →
        ∃ vs, (∀ junk, valuesDynPar .release hst t ds rd ext junk = ok (count, vs.flatten)) ∧
          SameValues hst ds.order ((rowMajor start count).map A) vs) ↔
    Good .release ds start count := by
  constructor
  · intro h
    refine good_of_agreeing_release hP hwf hsel hb hsize (inflate := inflate) fun file A hset => ?_
    obtain ⟨rd, h1, h2⟩ := some_schedule (p := .release) (inflate := inflate) (file := file) hset.addr
      hsort
    refine ⟨rd, fun n d hd => h2 ext _ n d (by
      rw [List.length_replicate]; exact Nat.lt_trans hmem (by decide)) hd, fun hlen => ?_⟩
    obtain ⟨vs, k1, k2⟩ := h file A hset rd (h1 ext)
    exact read_of_valuesDyn hset ht hs hlen (k1 _) k2
  · intro hg file A hset rd hrd
    obtain ⟨vs, -, -, h3, h4⟩ := C24_par_partial hset hg hsort hrd ht hs hmem
    exact ⟨vs, h4, h3⟩

/-- C39 in a release build, exactly: the reads are right whatever the file stores if and only if the selection satisfies `Spec.Good`. -/
theorem C39_exact_release {hst : Host} {t : Prim} {ds : Dataset} {N : Nat}
    {inflate : List Byte → Option (List Byte)} {items : List PyItem} {ls : List (List Nat)}
    {sort : List GItem → List GItem} (hP : Writable inflate ds N) (hwf : WF .release ds)
    (ht : ds.dtype = numpyType t) (hsw : Swaps hst t ∨ ds.order ≠ .LE)
    (hsort : ∀ l, SortedByAddr l (sort l))
    (hn : ∀ n ∈ ds.shape, n < 2 ^ 63) (hsel : numpySelect ds.shape items = some ls)
    (hne : ∀ l ∈ ls, l ≠ []) (h1 : PyItem.int (-1) ∉ items)
    (hmem : (ls.map List.length).prod * ds.dsize < 2 ^ 63)
    (hsize : ∀ n ∈ ds.shape, (ls.map List.length).prod + n * ds.chunkShape.prod < 2 ^ 57) :
    (∀ file A, Stores inflate file ds A → Sizes file ds →
      ∀ rd : ByteReader, (∀ ext dst, DirectReadToPar .release ⟨some file, inflate⟩ ds sort ext dst
        (rd ext dst)) →
      ∃ vs, (∀ junk, pyGetItem .release hst ds rd junk items =
          ok (t, squeezed (ls.map List.length), vs.flatten)) ∧
        SameValues hst ds.order ((combine ls).map A) vs) ↔
    Good .release ds (firsts ls) (ls.map List.length) := by
  have had : AddrDet ds := hP.addrDet
  obtain ⟨ext, e1, e2, e3, hext, hSel⟩ := py_selection (p := .release) hn hsel hne h1
  constructor
  · intro h
    have hpos' : ∀ c ∈ ls.map List.length, 0 < c := by
      intro c hc
      obtain ⟨l, hl, rfl⟩ := List.mem_map.1 hc
      exact List.length_pos_iff.2 (hne l hl)
    have hprod := pyShape_prod hpos'
    have ht' := pyPrim_numpy ht
    have hdsz : t.size = ds.dsize := by
      rw [pyPrim_size ht']
      have := hwf.built
      unfold Dataset.new at this
      obtain ⟨_, -, this⟩ := bind_eq_ok.1 this
      obtain ⟨_, -, this⟩ := bind_eq_ok.1 this
      obtain ⟨_, -, this⟩ := bind_eq_ok.1 this
      obtain ⟨_, -, this⟩ := bind_eq_ok.1 this
      obtain ⟨_, -, this⟩ := bind_eq_ok.1 this
      have := Outcome.ok.inj this
      rw [← this]
    refine good_of_agreeing_release (inflate := inflate) hP hwf hSel e2 hsize
      fun file A hset => ?_
    obtain ⟨rd, k1, k2⟩ := some_schedule (p := .release) (inflate := inflate) (file := file) had hsort
    refine ⟨rd, fun n d hd => k2 ext _ n d (by
      rw [List.length_replicate]; exact Nat.lt_trans hmem (by decide)) hd, fun hlen => ?_⟩
    obtain ⟨vs, v1, v2⟩ := h file A hset.stores hset.sizes rd k1
    have v1 := v1 fun _ => 0
    unfold pyGetItem at v1
    rw [e1, ok_bind] at v1
    simp only [ht', ok_bind, hprod, hdsz] at v1
    rw [if_pos (by omega), ok_bind, hext, ok_bind, List.map_const', List.length_range] at v1
    obtain ⟨r, h4, h5⟩ := bind_eq_ok.1 v1
    have h5 := (Prod.mk.inj (Prod.mk.inj (Outcome.ok.inj h5)).2).2
    exact ⟨r, read_of_valuesTo hset hdsz hsw hlen h4 h5 (by rw [e3]; exact v2)⟩
  · intro hg file A hst' hsz rd hrd
    exact C39_partial hwf had rfl hst' hsz ht hsw hsort hrd hn hsel hne h1 hg hmem

/-- `[2.., 1, 0]` of the 6×2×2 dataset, which a debug build gets wrong (the example after
`C24_exact_dyn_par`), gives the right values in every release build, and in Python too. -/
example (inflate : List Byte → Option (List Byte)) (file : List Byte) (A : List Nat → List Byte)
    (hset : Setup .release ⟨some file, inflate⟩ file series622 A
      (.extent [.slice 2, .index 1, .index 0]) [2, 1, 0] [4, 1, 1]) :
    RightValues .release .little .u8 series622 (directReadTo .release ⟨some file, inflate⟩ series622
      sortByAddr) (.extent [.slice 2, .index 1, .index 0]) A [2, 1, 0] [4, 1, 1] :=
  ((C24_exact_direct_release (inflate := inflate) (hst := .little) (t := .u8)
    (ext := .extent [.slice 2, .index 1, .index 0]) (start := [2, 1, 0]) (count := [4, 1, 1])
    (series622_plain.writable (series622_wf .debug) _) (series622_wf .release) ⟨rfl, rfl, rfl⟩ (by unfold InBounds; decide) sortByAddr_ok
    (by decide) (.inl (.inl rfl)) (by decide) (by decide)).2 (by unfold Good; decide)) file A hset

/-- `[.., .., 1]` goes wrong in release builds too: for some content of the file. -/
example (inflate : List Byte → Option (List Byte)) :
    ¬ (∀ file A, Setup .release ⟨some file, inflate⟩ file series622 A
        (.extent [.slice 0, .slice 0, .index 1]) [0, 0, 1] [6, 2, 1] →
      RightValues .release .little .u8 series622 (directReadTo .release ⟨some file, inflate⟩ series622
        sortByAddr) (.extent [.slice 0, .slice 0, .index 1]) A [0, 0, 1] [6, 2, 1]) := by
  have h := C24_exact_direct_release (inflate := inflate) (hst := .little) (t := .u8)
    (ext := .extent [.slice 0, .slice 0, .index 1])
    (start := [0, 0, 1]) (count := [6, 2, 1]) (series622_plain.writable (series622_wf .debug) _) (series622_wf .release)
    ⟨rfl, rfl, rfl⟩ (by unfold InBounds; decide) sortByAddr_ok (by decide) (.inl (.inl rfl)) (by decide)
    (by decide)
  intro hh
  exact absurd (h.1 hh) (by unfold Good; decide)

/-- And so does Python's `[:, :, 1]`. -/
example (inflate : List Byte → Option (List Byte)) :
    ¬ (∀ file A, Stores inflate file series622 A → Sizes file series622 →
      ∀ rd : ByteReader, (∀ ext dst, DirectReadToPar .release ⟨some file, inflate⟩ series622 sortByAddr
        ext dst (rd ext dst)) →
      ∃ vs, (∀ junk, pyGetItem .release .little series622 rd junk
          [.slice none none none, .slice none none none, .int 1] = ok (.u8, [6, 2], vs.flatten)) ∧
        SameValues .little series622.order
          ((combine [[0, 1, 2, 3, 4, 5], [0, 1], [1]]).map A) vs) := by
  intro hh
  have := (C39_exact_release (hst := .little) (t := .u8) (inflate := inflate) (series622_plain.writable (series622_wf .debug) _)
    (series622_wf .release) (items := [.slice none none none, .slice none none none, .int 1])
    (ls := [[0, 1, 2, 3, 4, 5], [0, 1], [1]]) rfl (.inl (.inl rfl)) sortByAddr_ok (by decide) (by decide)
    (by decide) (by decide) (by decide) (by decide)).1 hh
  revert this
  unfold Good
  decide

end Hidefix.Props
