import Verif.Props.Exact
import Verif.Props.Agreement
import Verif.Props.Values

/-!
# C24, exactly: for which selections the values are right in a debug build
-/

set_option autoImplicit false

namespace Hidefix.Props
open Hidefix Hidefix.Spec Hidefix.Proofs Outcome

/-- If a piece that is written to the start of zeros gives the right bytes for every array that a
writable (`Spec.Writable`) dataset can hold, then the piece is not shorter than the right bytes. -/
theorem not_short {p : Profile} {ds : Dataset} {N : Nat} {inflate : List Byte → Option (List Byte)}
    (hP : Writable inflate ds N) (hwf : WF p ds) {ext : Extents} {start count : List Nat}
    (hsel : Selects ext ds.shape start count) (hb : InBounds start count ds.shape) {m : Nat}
    (h : ∀ file A, Setup p ⟨some file, inflate⟩ file ds A ext start count →
      ∃ S : List Byte, S.length = m ∧
        blit (List.replicate (count.prod * ds.dsize) 0) 0 S = selected A start count) :
    count.prod * ds.dsize ≤ m := by
  have hl : start.length = count.length := by rw [hb.1, hb.2.1]
  rcases List.eq_nil_or_concat (rowMajor start count) with he | ⟨init, x, he⟩
  · have := rowMajor_length start count hl
    rw [he] at this
    simp only [List.length_nil] at this
    rw [← this, Nat.zero_mul]
    exact Nat.zero_le _
  · rw [List.concat_eq_append] at he
    have hx : x ∈ rowMajor start count := by rw [he]; simp
    obtain ⟨c, -, hc, hbox, -⟩ := chunkAtCoord_ok hwf (inBox_shape hb (mem_rowMajor hl hx))
    obtain ⟨_, hset, -⟩ := marked_setup hP hwf hsel hb hc (linear_lt_of_box hbox)
    obtain ⟨S, hS, hsel'⟩ := h _ _ hset
    by_contra hlt
    have hd := hP.elem.1
    obtain ⟨d, hd'⟩ : ∃ d, ds.dsize = d + 1 := ⟨ds.dsize - 1, by omega⟩
    have hlast : (selected (markA ds c (linear (List.zipWith (fun a b => a - b) x c.offset)
        ds.chunkShape)) start count).getLast? = some 1 := by
      unfold selected
      rw [he, List.flatMap_append]
      simp only [List.flatMap_cons, List.flatMap_nil, List.append_nil]
      unfold markA
      rw [if_pos ⟨hc, hbox, rfl⟩, hd', List.replicate_succ', ← List.append_assoc, List.getLast?_concat]
    rw [← hsel', blit_zero, List.drop_replicate] at hlast
    obtain ⟨k, hk⟩ : ∃ k, count.prod * ds.dsize - S.length = k + 1 :=
      ⟨count.prod * ds.dsize - S.length - 1, by omega⟩
    rw [hk, List.replicate_succ', ← List.append_assoc, List.getLast?_concat] at hlast
    exact absurd (Option.some.inj hlast) (by decide)

/-- If `Direct::read_to` in a debug build fills a zeroed destination of the exact size right, whatever
array a writable (`Spec.Writable`) dataset holds, then the selection satisfies `Spec.Good`. -/
theorem good_of_direct_zero {ds : Dataset} {N : Nat} {inflate : List Byte → Option (List Byte)}
    {ext : Extents} {start count : List Nat} {sort : List GItem → List GItem}
    (hP : Writable inflate ds N) (hwf : WF .debug ds) (hsel : Selects ext ds.shape start count)
    (hb : InBounds start count ds.shape) (hsort : ∀ l, SortedByAddr l (sort l))
    (h : ∀ file A, Setup .debug ⟨some file, inflate⟩ file ds A ext start count →
      ∃ n, directReadTo .debug ⟨some file, inflate⟩ ds sort ext
        (List.replicate (count.prod * ds.dsize) 0) = (ok n, selected A start count)) :
    Good .debug ds start count := by
  obtain ⟨c₁, hc₁⟩ := chunks_nonempty hwf hb
  obtain ⟨_, hset, -⟩ := marked_setup hP hwf hsel hb hc₁ (prod_pos hwf.pos)
  obtain ⟨n₁, h₁⟩ := h _ _ hset
  obtain ⟨-, -, hsl⟩ := directReadTo_inv (congrArg Prod.fst h₁)
  obtain ⟨items, hS⟩ := sliced_of_read hP hwf hsel hb hsl
  have hC : ds.chunkShape.prod * ds.dsize < W := by
    have := hP.chunk
    have : (2 : Nat) ^ 63 < W := by decide
    omega
  have key : ∀ file A, Setup .debug ⟨some file, inflate⟩ file ds A ext start count →
      (∀ it ∈ items, Ready (rawD .debug ⟨some file, inflate⟩ file ds (ds.chunkShape.prod * ds.dsize))
        ds.dsize it.chunk it.stop) ∧
      (items.flatMap (bytesOf (rawD .debug ⟨some file, inflate⟩ file ds
        (ds.chunkShape.prod * ds.dsize)) ds.dsize)).length = total items * ds.dsize ∧
      blit (List.replicate (count.prod * ds.dsize) 0) 0 (items.flatMap
        (bytesOf (rawD .debug ⟨some file, inflate⟩ file ds (ds.chunkShape.prod * ds.dsize)) ds.dsize))
      = selected A start count := by
    intro file A hset
    obtain ⟨n, hr⟩ := h file A hset
    obtain ⟨i1, i2⟩ := directReadTo_iff (dst := List.replicate (count.prod * ds.dsize) 0) hset.addr
      (fun l => (hsort l).1) (chunkBytes_ok hwf hC) hset.opened hS (by simp)
    have hready := ((i1 _).1 (congrArg Prod.fst hr)).2
    exact ⟨hready, flatMap_bytesOf_length (fun it hit => Nat.le_of_lt (hS.le it hit)) hready,
      congrArg Prod.snd ((i2 hready).symm.trans hr)⟩
  have hfull := not_short hP hwf hsel hb (m := total items * ds.dsize)
    fun file A hset => ⟨_, (key file A hset).2⟩
  refine good_of_enumerates hwf hsel hb hS.slices
    (enumerates_of_bytes hP hwf hsel hb (fun it hit => Nat.le_of_lt (hS.le it hit)) hS.mem
      fun file A hset => ?_)
  obtain ⟨k1, k2, k3⟩ := key file A hset
  refine ⟨k1, ?_⟩
  rw [← k3, blit_zero, blit_zero, List.drop_replicate, List.drop_replicate, k2,
    Nat.sub_eq_zero_of_le hfull, List.replicate_zero, List.replicate_zero]

theorem sameValues_unique {h : Host} {o : ByteOrder} {es vs ws : List (List Byte)}
    (h1 : SameValues h o es vs) (h2 : SameValues h o es ws) : vs = ws := by
  unfold SameValues at h1 h2
  induction h1 generalizing ws with
  | nil => cases h2; rfl
  | cons hv hvs ih =>
    cases h2 with
    | cons hw hws =>
      rw [ih hws]
      congr 1
      split at hv
      · rw [if_pos ‹_›] at hw
        rw [hv, hw]
      · rw [if_neg ‹_›] at hw
        have := hv.2.trans hw.2.symm
        unfold msFirst at this
        cases h <;> simpa [Host.native] using this

theorem cut_words {k : Nat} (m : Nat) (l : List Byte) (h : l.length = m * k) :
    ∃ es : List (List Byte), (∀ e ∈ es, e.length = k) ∧ es.flatten = l := by
  induction m generalizing l with
  | zero => exact ⟨[], by simp, by simpa using (List.length_eq_zero_iff.1 (by simpa using h)).symm⟩
  | succ m ih =>
    rw [Nat.succ_mul] at h
    obtain ⟨es, h1, h2⟩ := ih (l.drop k) (by rw [List.length_drop]; omega)
    refine ⟨l.take k :: es, ?_, by rw [List.flatten_cons, h2, List.take_append_drop]⟩
    intro e he
    rcases List.mem_cons.1 he with rfl | he
    · rw [List.length_take]; omega
    · exact h1 e he

/-- The right values come from the right bytes. -/
theorem bytes_of_values {h : Host} {t : Prim} {o : ByteOrder} (hs : Swaps h t ∨ o ≠ .LE)
    {es vs : List (List Byte)} (he : ∀ e ∈ es, e.length = t.size) {l : List Byte}
    (hl : l.length = es.flatten.length) (hv : toNativeSlice h t o l = vs.flatten)
    (hsame : SameValues h o es vs) : l = es.flatten := by
  obtain ⟨vs', e1, e2⟩ := toNative_elems (o := o) hs es he
  obtain rfl := sameValues_unique hsame e2
  have hlen : ∃ k, es.flatten.length = k * t.size := by
    refine ⟨es.length, ?_⟩
    clear hl hv hsame e1 e2
    induction es with
    | nil => simp
    | cons e es ih =>
      rw [List.flatten_cons, List.length_append, ih (fun x hx => he x (by simp [hx])),
        he e (by simp), List.length_cons, Nat.succ_mul]
      omega
  obtain ⟨k, hk⟩ := hlen
  obtain ⟨ws, hws, rfl⟩ := cut_words k l (hl.trans hk)
  have := (C22_involution (h := h) (t := t) o ws hws).1
  rw [← this, hv, ← e1]
  exact (C22_involution (h := h) o es he).1

/-- `values` returns the selected elements of `A` as native numbers. -/
def RightValues (p : Profile) (hst : Host) (t : Prim) (ds : Dataset) (rd : ByteReader) (ext : Extents)
    (A : List Nat → List Byte) (start count : List Nat) : Prop :=
  ∃ vs, values p hst t ds rd ext = ok vs.flatten ∧ vs.length = count.prod ∧
    SameValues hst ds.order ((rowMajor start count).map A) vs

/-- The right values come from the right bytes. -/
theorem read_of_valuesTo {p : Profile} {hst : Host} {t : Prim} {io : Io} {file : List Byte}
    {ds : Dataset} {A : List Nat → List Byte} {ext : Extents} {start count : List Nat}
    {rd : ByteReader} {dst : List Byte} (h : Setup p io file ds A ext start count)
    (ht : t.size = ds.dsize) (hs : Swaps hst t ∨ ds.order ≠ .LE)
    (hlen : ∀ n d, rd ext dst = (ok n, d) → d.length = count.prod * ds.dsize)
    {m : Nat} {vs : List (List Byte)} (h4 : (valuesTo hst t ds.order rd ext dst).1 = ok m)
    (h5 : (valuesTo hst t ds.order rd ext dst).2 = vs.flatten)
    (h3 : SameValues hst ds.order ((rowMajor start count).map A) vs) :
    rd ext dst = (ok m, selected A start count) := by
  unfold valuesTo at h4 h5
  cases hr : rd ext dst with
  | mk o d =>
    rw [hr] at h4 h5
    cases o with
    | ok m' =>
      simp only at h4 h5
      obtain rfl := Outcome.ok.inj h4
      have hel : ∀ e ∈ (rowMajor start count).map A, e.length = t.size := by
        intro e hm
        obtain ⟨x, -, rfl⟩ := List.mem_map.1 hm
        rw [h.stores.elem, ht]
      rw [selected_flatten, ← bytes_of_values (o := ds.order) hs hel (l := d) ?_ h5 h3]
      rw [hlen m' d hr, ← selected_flatten, selected_length h]
    | _ => simp at h4

/-- The same for `values`, which reads into zeroed memory. -/
theorem read_of_values {p : Profile} {hst : Host} {t : Prim} {io : Io} {file : List Byte}
    {ds : Dataset} {A : List Nat → List Byte} {ext : Extents} {start count : List Nat}
    {rd : ByteReader} (h : Setup p io file ds A ext start count) (ht : t.size = ds.dsize)
    (hs : Swaps hst t ∨ ds.order ≠ .LE)
    (hlen : ∀ n d, rd ext (List.replicate (count.prod * ds.dsize) 0) = (ok n, d) →
      d.length = count.prod * ds.dsize)
    (hv : RightValues p hst t ds rd ext A start count) :
    ∃ n, rd ext (List.replicate (count.prod * ds.dsize) 0) = (ok n, selected A start count) := by
  obtain ⟨vs, h1, -, h3⟩ := hv
  have hW : count.prod * ds.dsize < W :=
    Nat.lt_of_le_of_lt (Nat.mul_le_mul_right _ (count_prod_le h.wf h.inb)) h.sizes.data
  have hreq := reqBytes_ok h.wf h.sel h.inb hW
  have hgc := (getCounts_of_sized ((selects_iff ext ds.shape start count).2 h.sel)).1
  unfold reqBytes at hreq
  rw [hgc, ok_bind] at hreq
  obtain ⟨n, k2, k3⟩ := bind_eq_ok.1 hreq
  have hdiv : count.prod * ds.dsize / t.size = count.prod := by
    rw [ht, Nat.mul_div_cancel _ h.sizes.elem.1]
  unfold values at h1
  rw [hgc, ok_bind, k2, ok_bind, k3, ok_bind] at h1
  simp only [hdiv] at h1
  obtain ⟨_, -, h1⟩ := bind_eq_ok.1 h1
  obtain ⟨_, -, h1⟩ := bind_eq_ok.1 h1
  obtain ⟨_, -, h1⟩ := bind_eq_ok.1 h1
  obtain ⟨b, hb, h1⟩ := bind_eq_ok.1 h1
  split at hb
  · obtain rfl := Outcome.ok.inj hb
    obtain ⟨r, h4, h1⟩ := bind_eq_ok.1 h1
    have h5 := Outcome.ok.inj h1
    rw [ht] at h4 h5
    exact ⟨r, read_of_valuesTo h ht hs hlen h4 h5 h3⟩
  · simp at hb

/-- The same for `values_dyn_par`, for uninitialised memory that happens to be zero. -/
theorem read_of_valuesDyn {p : Profile} {hst : Host} {t : Prim} {io : Io} {file : List Byte}
    {ds : Dataset} {A : List Nat → List Byte} {ext : Extents} {start count : List Nat}
    {rd : ByteReader} (h : Setup p io file ds A ext start count) (ht : t.size = ds.dsize)
    (hs : Swaps hst t ∨ ds.order ≠ .LE)
    (hlen : ∀ n d, rd ext (List.replicate (count.prod * ds.dsize) 0) = (ok n, d) →
      d.length = count.prod * ds.dsize) {vs : List (List Byte)}
    (h1 : valuesDynPar p hst t ds rd ext (fun _ => 0) = ok (count, vs.flatten))
    (h3 : SameValues hst ds.order ((rowMajor start count).map A) vs) :
    ∃ n, rd ext (List.replicate (count.prod * ds.dsize) 0) = (ok n, selected A start count) := by
  have hgc := (getCounts_of_sized ((selects_iff ext ds.shape start count).2 h.sel)).1
  unfold valuesDynPar at h1
  rw [hgc, ok_bind] at h1
  obtain ⟨_, -, h1⟩ := bind_eq_ok.1 h1
  obtain ⟨_, -, h1⟩ := bind_eq_ok.1 h1
  obtain ⟨_, -, h1⟩ := bind_eq_ok.1 h1
  obtain ⟨_, -, h1⟩ := bind_eq_ok.1 h1
  obtain ⟨_, -, h1⟩ := bind_eq_ok.1 h1
  obtain ⟨b, hb, h1⟩ := bind_eq_ok.1 h1
  split at hb
  · obtain rfl := Outcome.ok.inj hb
    obtain ⟨r, h4, h1⟩ := bind_eq_ok.1 h1
    have h5 := (Prod.mk.inj (Outcome.ok.inj h1)).2
    rw [ht, List.map_const', List.length_range] at h4 h5
    exact ⟨r, read_of_valuesTo h ht hs hlen h4 h5 h3⟩
  · simp at hb

theorem direct_zero_length {ds : Dataset} {N : Nat} {inflate : List Byte → Option (List Byte)}
    {ext : Extents} {start count : List Nat} {sort : List GItem → List GItem} {file : List Byte}
    {A : List Nat → List Byte} (hP : Writable inflate ds N) (hsort : ∀ l, SortedByAddr l (sort l))
    (hset : Setup .debug ⟨some file, inflate⟩ file ds A ext start count) {n : Nat} {d : List Byte}
    (h : directReadTo .debug ⟨some file, inflate⟩ ds sort ext
      (List.replicate (count.prod * ds.dsize) 0) = (ok n, d)) : d.length = count.prod * ds.dsize := by
  obtain ⟨-, -, hsl⟩ := directReadTo_inv (congrArg Prod.fst h)
  obtain ⟨items, hS⟩ := sliced_of_read hP hset.wf hset.sel hset.inb hsl
  have hC : ds.chunkShape.prod * ds.dsize < W := by
    have := hP.chunk
    have : (2 : Nat) ^ 63 < W := by decide
    omega
  obtain ⟨i1, i2⟩ := directReadTo_iff (dst := List.replicate (count.prod * ds.dsize) 0) hset.addr
    (fun l => (hsort l).1) (chunkBytes_ok hset.wf hC) hset.opened hS (by simp)
  have hready := ((i1 _).1 (congrArg Prod.fst h)).2
  have e := congrArg Prod.snd ((i2 hready).symm.trans h)
  simp only at e
  rw [← e, blit_length, List.length_replicate]
  rw [flatMap_bytesOf_length (fun it hit => Nat.le_of_lt (hS.le it hit)) hready, List.length_replicate,
    Nat.zero_add]
  exact hS.fits

/-- The readers that agree with `Direct::read_to` when they succeed. -/
theorem good_of_agreeing {ds : Dataset} {N : Nat}
    {inflate : List Byte → Option (List Byte)} {ext : Extents} {start count : List Nat}
    (hP : Writable inflate ds N) (hwf : WF .debug ds) (hsel : Selects ext ds.shape start count)
    (hb : InBounds start count ds.shape)
    (h : ∀ file A, Setup .debug ⟨some file, inflate⟩ file ds A ext start count →
      ∃ rd : ByteReader, (∀ n d, rd ext (List.replicate (count.prod * ds.dsize) 0) = (ok n, d) →
          directReadTo .debug ⟨some file, inflate⟩ ds sortByAddr ext
            (List.replicate (count.prod * ds.dsize) 0) = (ok n, d)) ∧
        ((∀ n d, rd ext (List.replicate (count.prod * ds.dsize) 0) = (ok n, d) →
            d.length = count.prod * ds.dsize) →
          ∃ n, rd ext (List.replicate (count.prod * ds.dsize) 0) = (ok n, selected A start count))) :
    Good .debug ds start count := by
  refine good_of_direct_zero hP hwf hsel hb sortByAddr_ok (inflate := inflate) fun file A hset => ?_
  obtain ⟨rd, h1, h2⟩ := h file A hset
  obtain ⟨n, hn⟩ := h2 fun n d hd => direct_zero_length hP sortByAddr_ok hset (h1 n d hd)
  exact ⟨n, h1 n _ hn⟩

theorem good_of_values {hst : Host} {t : Prim} {ds : Dataset} {N : Nat}
    {inflate : List Byte → Option (List Byte)} {ext : Extents} {start count : List Nat}
    (hP : Writable inflate ds N) (hwf : WF .debug ds) (hsel : Selects ext ds.shape start count)
    (hb : InBounds start count ds.shape)
    (ht : t.size = ds.dsize) (hs : Swaps hst t ∨ ds.order ≠ .LE)
    (h : ∀ file A, Setup .debug ⟨some file, inflate⟩ file ds A ext start count →
      ∃ rd : ByteReader, (∀ n d, rd ext (List.replicate (count.prod * ds.dsize) 0) = (ok n, d) →
          directReadTo .debug ⟨some file, inflate⟩ ds sortByAddr ext
            (List.replicate (count.prod * ds.dsize) 0) = (ok n, d)) ∧
        RightValues .debug hst t ds rd ext A start count) : Good .debug ds start count := by
  refine good_of_agreeing hP hwf hsel hb (inflate := inflate) fun file A hset => ?_
  obtain ⟨rd, h1, h2⟩ := h file A hset
  exact ⟨rd, h1, fun hlen => read_of_values hset ht hs hlen h2⟩

/-- A schedule for every destination, and its agreement with `Direct::read_to`. -/
theorem some_schedule {p : Profile} {ds : Dataset} {inflate : List Byte → Option (List Byte)}
    {sort : List GItem → List GItem} {file : List Byte} (had : AddrDet ds)
    (hsort : ∀ l, SortedByAddr l (sort l)) :
    ∃ rd : ByteReader, (∀ ext dst, DirectReadToPar p ⟨some file, inflate⟩ ds sort ext dst
        (rd ext dst)) ∧
      ∀ ext dst n d, dst.length < W → rd ext dst = (ok n, d) →
        directReadTo p ⟨some file, inflate⟩ ds sortByAddr ext dst = (ok n, d) := by
  have hex : ∀ ext dst, ∃ res, DirectReadToPar p ⟨some file, inflate⟩ ds sort ext dst res :=
    fun ext dst => par_exists p ⟨some file, inflate⟩ ds sort ext dst
  refine ⟨fun ext d => (hex ext d).choose, fun ext dst => (hex ext dst).choose_spec,
    fun ext dst n d hW hd => ?_⟩
  obtain ⟨-, a2⟩ := C13 (sort' := sortByAddr) had rfl hsort sortByAddr_ok dst hW _
    (hex ext dst).choose_spec
  exact (a2 n (congrArg Prod.fst hd)).symm.trans hd

/-- C24 for the direct reader in a debug build, exactly: for a writable (`Spec.Writable`) dataset, `values` returns
the selected elements whatever array the file stores, if and only if the selection satisfies
`Spec.Good`. -/
theorem C24_exact_direct {hst : Host} {t : Prim} {ds : Dataset} {N : Nat}
    {inflate : List Byte → Option (List Byte)} {ext : Extents} {start count : List Nat}
    {sort : List GItem → List GItem} (hP : Writable inflate ds N) (hwf : WF .debug ds)
    (hsel : Selects ext ds.shape start count) (hb : InBounds start count ds.shape)
    (hsort : ∀ l, SortedByAddr l (sort l)) (ht : t.size = ds.dsize)
    (hs : Swaps hst t ∨ ds.order ≠ .LE) (hmem : count.prod * ds.dsize < 2 ^ 63) :
    (∀ file A, Setup .debug ⟨some file, inflate⟩ file ds A ext start count →
      RightValues .debug hst t ds (directReadTo .debug ⟨some file, inflate⟩ ds sort) ext A start count) ↔
    Good .debug ds start count := by
  constructor
  · intro h
    refine good_of_values hP hwf hsel hb ht hs fun file A hset => ⟨_, fun n d hd => ?_, h file A hset⟩
    obtain ⟨res, hres⟩ := par_exists .debug ⟨some file, inflate⟩ ds sortByAddr ext
      (List.replicate (count.prod * ds.dsize) 0)
    have hW : (List.replicate (count.prod * ds.dsize) (0 : Byte)).length < W := by
      rw [List.length_replicate]; exact Nat.lt_trans hmem (by decide)
    obtain ⟨a1, a2⟩ := C13 (sort' := sort) hset.addr hset.opened sortByAddr_ok hsort _ hW res hres
    obtain ⟨b1, b2⟩ := C13 (sort' := sortByAddr) hset.addr hset.opened sortByAddr_ok sortByAddr_ok _ hW
      res hres
    have hok := (a1 n).2 (congrArg Prod.fst hd)
    rw [← b2 n hok, a2 n hok, hd]
  · intro hg file A hset
    exact C24_direct_partial hset hg hsort ht hs hmem

/-- C24 for the caching reader with any history in a debug build, exactly. -/
theorem C24_exact_cache {hst : Host} {t : Prim} {ds : Dataset} {N : Nat}
    {inflate : List Byte → Option (List Byte)} {ext : Extents} {start count : List Nat}
    {cr : CacheReader} (hP : Writable inflate ds N) (hwf : WF .debug ds)
    (hsel : Selects ext ds.shape start count) (hb : InBounds start count ds.shape)
    (hrd : CacheReader.withDataset .debug ds = ok cr) (hist : List (Extents × List Byte))
    (ht : t.size = ds.dsize)
    (hs : Swaps hst t ∨ ds.order ≠ .LE) (hmem : count.prod * ds.dsize < 2 ^ 63) :
    (∀ file A, Setup .debug ⟨some file, inflate⟩ file ds A ext start count →
      RightValues .debug hst t ds (fun e d =>
        (((afterReads .debug ⟨some file, inflate⟩ file ds cr hist).readTo .debug ⟨some file, inflate⟩
            file ds e d).1,
         ((afterReads .debug ⟨some file, inflate⟩ file ds cr hist).readTo .debug ⟨some file, inflate⟩
            file ds e d).2.1)) ext A start count) ↔
    Good .debug ds start count := by
  constructor
  · intro h
    refine good_of_values hP hwf hsel hb ht hs fun file A hset => ⟨_, fun n d hd => ?_, h file A hset⟩
    obtain ⟨res, hres⟩ := par_exists .debug ⟨some file, inflate⟩ ds sortByAddr ext
      (List.replicate (count.prod * ds.dsize) 0)
    have hW : (List.replicate (count.prod * ds.dsize) (0 : Byte)).length < W := by
      rw [List.length_replicate]; exact Nat.lt_trans hmem (by decide)
    obtain ⟨a1, -, a3⟩ := C12_destination (sort' := sortByAddr) hset.addr hset.opened sortByAddr_ok
      sortByAddr_ok hrd hist _ hW res hres
    obtain ⟨e1, e2⟩ := Prod.mk.inj hd
    have hok := (a1 n).1 e1
    exact Prod.ext hok ((a3 n hok).1.symm.trans e2)
  · intro hg file A hset
    exact C24_cache_partial hset hg hrd hist ht hs hmem

/-- C24 for the parallel reads in a debug build, exactly: `values_par` returns the selected elements for
every schedule, whatever the file stores, if and only if the selection satisfies `Spec.Good`. -/
theorem C24_exact_par {hst : Host} {t : Prim} {ds : Dataset} {N : Nat}
    {inflate : List Byte → Option (List Byte)} {ext : Extents} {start count : List Nat}
    {sort : List GItem → List GItem} (hP : Writable inflate ds N) (hwf : WF .debug ds)
    (hsel : Selects ext ds.shape start count) (hb : InBounds start count ds.shape)
    (hsort : ∀ l, SortedByAddr l (sort l)) (ht : t.size = ds.dsize)
    (hs : Swaps hst t ∨ ds.order ≠ .LE) (hmem : count.prod * ds.dsize < 2 ^ 63) :
    (∀ file A, Setup .debug ⟨some file, inflate⟩ file ds A ext start count →
      ∀ rd : ByteReader, (∀ dst, DirectReadToPar .debug ⟨some file, inflate⟩ ds sort ext dst (rd ext dst)) →
        RightValues .debug hst t ds rd ext A start count) ↔
    Good .debug ds start count := by
  constructor
  · intro h
    refine good_of_values (inflate := inflate) hP hwf hsel hb ht hs fun file A hset => ?_
    obtain ⟨rd, h1, h2⟩ := some_schedule (p := .debug) (inflate := inflate) (file := file) hset.addr hsort
    exact ⟨rd, fun n d hd => h2 ext _ n d (by
      rw [List.length_replicate]; exact Nat.lt_trans hmem (by decide)) hd, h file A hset rd (h1 ext)⟩
  · intro hg file A hset rd hrd
    obtain ⟨vs, h1, h2, h3, -⟩ := C24_par_partial hset hg hsort hrd ht hs hmem
    exact ⟨vs, h1, h2, h3⟩

/-- C24 for `values_dyn_par` in a debug build, exactly: it returns the selected elements in an array of the
dimensions of the selection for every schedule and whatever the memory held that it reads into, whatever
the file stores, if and only if the selection satisfies `Spec.Good`. -/
theorem C24_exact_dyn_par {hst : Host} {t : Prim} {ds : Dataset} {N : Nat}
    {inflate : List Byte → Option (List Byte)} {ext : Extents} {start count : List Nat}
    {sort : List GItem → List GItem} (hP : Writable inflate ds N) (hwf : WF .debug ds)
    (hsel : Selects ext ds.shape start count) (hb : InBounds start count ds.shape)
    (hsort : ∀ l, SortedByAddr l (sort l)) (ht : t.size = ds.dsize)
    (hs : Swaps hst t ∨ ds.order ≠ .LE) (hmem : count.prod * ds.dsize < 2 ^ 63) :
    (∀ file A, Setup .debug ⟨some file, inflate⟩ file ds A ext start count →
      ∀ rd : ByteReader, (∀ dst, DirectReadToPar .debug ⟨some file, inflate⟩ ds sort ext dst (rd ext dst)) →
        ∃ vs, (∀ junk, valuesDynPar .debug hst t ds rd ext junk = ok (count, vs.flatten)) ∧
          SameValues hst ds.order ((rowMajor start count).map A) vs) ↔
    Good .debug ds start count := by
  constructor
  · intro h
    refine good_of_agreeing (inflate := inflate) hP hwf hsel hb fun file A hset => ?_
    obtain ⟨rd, h1, h2⟩ := some_schedule (p := .debug) (inflate := inflate) (file := file) hset.addr hsort
    refine ⟨rd, fun n d hd => h2 ext _ n d (by
      rw [List.length_replicate]; exact Nat.lt_trans hmem (by decide)) hd, fun hlen => ?_⟩
    obtain ⟨vs, k1, k2⟩ := h file A hset rd (h1 ext)
    exact read_of_valuesDyn hset ht hs hlen (k1 _) k2
  · intro hg file A hset rd hrd
    obtain ⟨vs, -, -, h3, h4⟩ := C24_par_partial hset hg hsort hrd ht hs hmem
    exact ⟨vs, h4, h3⟩

/-- Some content of the file makes `values` of `[2.., 1, 0]` of the 6×2×2 dataset wrong. -/
example (inflate : List Byte → Option (List Byte)) :
    ∃ file A, Setup .debug ⟨some file, inflate⟩ file series622 A
        (.extent [.slice 2, .index 1, .index 0]) [2, 1, 0] [4, 1, 1] ∧
      ¬ RightValues .debug .little .u8 series622 (directReadTo .debug ⟨some file, inflate⟩ series622
        sortByAddr) (.extent [.slice 2, .index 1, .index 0]) A [2, 1, 0] [4, 1, 1] := by
  by_contra hn
  simp only [not_exists, not_and, not_not] at hn
  have := (C24_exact_direct (hst := .little) (t := .u8) (inflate := inflate) (series622_plain.writable (series622_wf .debug) _)
    (series622_wf .debug) (ext := .extent [.slice 2, .index 1, .index 0]) (start := [2, 1, 0])
    (count := [4, 1, 1]) ⟨rfl, rfl, rfl⟩ (by unfold InBounds; decide) sortByAddr_ok (by decide)
    (.inl (.inl rfl)) (by decide)).1 hn
  revert this
  unfold Good
  decide

end Hidefix.Props
