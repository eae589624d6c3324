import Verif.Props.ExactStreams
import Verif.Props.StreamValues

/-!
# C16 in debug builds: the XDR stream against the plain stream, and exactly
-/

set_option autoImplicit false

namespace Hidefix.Props
open Hidefix Hidefix.Spec Hidefix.Proofs Outcome

/-- In debug builds every slice ends inside its chunk. -/
theorem debug_inside {ds : Dataset} {ext : Extents} {items : List Item} {vsz : Nat} (hwf : WF .debug ds)
    (hv : reqBytes .debug ds ext = ok vsz) (hs : ds.chunkSlices .debug ext = ok ⟨items, ok ()⟩) :
    ∀ it ∈ items, it.stop ≤ ds.chunkShape.prod := by
  unfold Dataset.chunkSlices at hs
  obtain ⟨s, h1, h2⟩ := bind_eq_ok.1 hs
  have h2 := Outcome.ok.inj h2
  obtain ⟨h0, hstop, hstopW, hvW, hsc⟩ := chunkSlicer_debug h1 hv
  unfold Slicer.run at h2
  obtain ⟨-, t2⟩ := trace_debug (ds := ds) (Slicer.fuel ds) s (by omega)
  rw [h2] at t2
  intro it hit
  by_cases he : ds.shape = []
  · rw [trace_scalar (p := .debug) he (Slicer.fuel ds) s it (by rw [h2]; exact hit)]
    exact prod_pos hwf.pos
  · exact (t2 it hit).2 he

theorem dtype_size {p : Profile} {ds : Dataset} (hwf : WF p ds) : ds.dtype.dsize = ds.dsize := by
  have := hwf.built
  unfold Dataset.new at this
  obtain ⟨_, -, this⟩ := bind_eq_ok.1 this
  obtain ⟨_, -, this⟩ := bind_eq_ok.1 this
  obtain ⟨_, -, this⟩ := bind_eq_ok.1 this
  obtain ⟨_, -, this⟩ := bind_eq_ok.1 this
  obtain ⟨_, -, this⟩ := bind_eq_ok.1 this
  exact congrArg Dataset.dsize (Outcome.ok.inj this)

theorem xdr_widens {d : Datatype} {x : Nat} (hx : xdrFactor d = ok x) :
    d.dsize * x ≤ d.dsize ∨ d.dsize * x ≤ 4 := by
  unfold xdrFactor at hx
  split at hx
  · obtain rfl := Outcome.ok.inj hx; omega
  · split at hx
    · split at hx
      · simp at hx
      · obtain rfl := Outcome.ok.inj hx
        right; exact Nat.mul_div_le 4 _
    · obtain rfl := Outcome.ok.inj hx; omega

/-- A decoded chunk, cut into elements, and its conversion. -/
theorem xdr_chunk {p : Profile} {hst : Host} {io : Io} {file : List Byte} {ds : Dataset}
    {A : List Nat → List Byte} {ext : Extents} {start count : List Nat}
    (h : Setup p io file ds A ext start count) (ht : XdrType ds.dtype)
    (ho : ds.order ≠ .Unknown ∨ 4 ≤ ds.dsize ∨ ∃ n, ds.dtype = .custom n) :
    ∀ c ∈ ds.chunks, ∃ es : List (List Byte),
      rawD p io file ds (ds.chunkShape.prod * ds.dsize) c = ok es.flatten ∧
      (rawD p io file ds (ds.chunkShape.prod * ds.dsize) c >>=
        fun b => xdr hst b ds.dtype ds.order) = ok (es.map (xdrElem ds.dtype ds.order)).flatten ∧
      es.length = ds.chunkShape.prod ∧ ∀ e ∈ es, e.length = ds.dsize := by
  intro c hc
  have hdt := dtype_size h.wf
  obtain ⟨block, k1, k2, -⟩ := rawD_stores (p := p) h.stores h.sizes hc
  obtain ⟨es, s1, s2, s3⟩ := exists_elems k2
  refine ⟨es, by rw [k1, s3], ?_, s1, s2⟩
  rw [k1, ok_bind, ← s3]
  exact xdr_eq ht (by rw [hdt]; exact ho) (by rw [hdt]; exact s2)

/-- What the two streams yield for slices inside the chunks. -/
theorem xdr_core {p : Profile} {hst : Host} {io : Io} {file : List Byte} {ds : Dataset}
    {A : List Nat → List Byte} {ext : Extents} {start count : List Nat}
    (h : Setup p io file ds A ext start count) (ht : XdrType ds.dtype)
    (ho : ds.order ≠ .Unknown ∨ 4 ≤ ds.dsize ∨ ∃ n, ds.dtype = .custom n) {x : Nat}
    (hlen : ∀ o (e : List Byte), e.length = ds.dsize → (xdrElem ds.dtype o e).length = ds.dsize * x)
    {items : List Item} (hle : ∀ it ∈ items, it.start ≤ it.stop) (hch : ∀ it ∈ items, it.chunk ∈ ds.chunks)
    (hin : ∀ it ∈ items, it.stop ≤ ds.chunkShape.prod) :
    (∀ it ∈ items, Ready (rawD p io file ds (ds.chunkShape.prod * ds.dsize)) ds.dsize it.chunk it.stop) ∧
    (∀ it ∈ items, Ready (fun c => rawD p io file ds (ds.chunkShape.prod * ds.dsize) c >>=
      fun b => xdr hst b ds.dtype ds.order) (ds.dsize * x) it.chunk it.stop) ∧
    ∃ es : List (List Byte), (∀ e ∈ es, e.length = ds.dsize) ∧
      items.flatMap (bytesOf (rawD p io file ds (ds.chunkShape.prod * ds.dsize)) ds.dsize) =
        es.flatten ∧
      items.flatMap (bytesOf (fun c => rawD p io file ds (ds.chunkShape.prod * ds.dsize) c >>=
        fun b => xdr hst b ds.dtype ds.order) (ds.dsize * x)) =
        (es.map (xdrElem ds.dtype ds.order)).flatten := by
  have hdec := xdr_chunk (hst := hst) h ht ho
  have hel : ∀ es : List (List Byte), (∀ e ∈ es, e.length = ds.dsize) →
      ∀ e ∈ es.map (xdrElem ds.dtype ds.order), e.length = ds.dsize * x := by
    intro es hes e he
    obtain ⟨e', he', rfl⟩ := List.mem_map.1 he
    exact hlen _ _ (hes e' he')
  have hmem : ∀ ck ∈ expand items, ck.1 ∈ ds.chunks ∧ ck.2 < ds.chunkShape.prod := by
    intro ck hck
    simp only [expand, List.mem_flatMap, List.mem_map, List.mem_range'_1] at hck
    obtain ⟨it, hit, k, hk, rfl⟩ := hck
    have := hin it hit
    have := hle it hit
    exact ⟨hch it hit, by simp only; omega⟩
  refine ⟨fun it hit => ?_, fun it hit => ?_, (expand items).map fun ck =>
    ((valOf [] (rawD p io file ds (ds.chunkShape.prod * ds.dsize) ck.1)).drop
      (ck.2 * ds.dsize)).take ds.dsize, ?_, ?_, ?_⟩
  · obtain ⟨es, s1, -, s2, s3⟩ := hdec it.chunk (hch it hit)
    refine ⟨_, s1, ?_⟩
    rw [flatten_length_const s3, s2]
    exact Nat.mul_le_mul_right _ (hin it hit)
  · obtain ⟨es, -, s1, s2, s3⟩ := hdec it.chunk (hch it hit)
    refine ⟨_, s1, ?_⟩
    rw [flatten_length_const (hel es s3), List.length_map, s2]
    exact Nat.mul_le_mul_right _ (hin it hit)
  · intro e he
    obtain ⟨ck, hck, rfl⟩ := List.mem_map.1 he
    obtain ⟨hc, hk⟩ := hmem ck hck
    obtain ⟨es, s1, -, s2, s3⟩ := hdec ck.1 hc
    have hk' : ck.2 < es.length := by rw [s2]; exact hk
    rw [s1]
    simp only [valOf]
    rw [flatten_elem s3 hk']
    exact s3 _ (List.getElem_mem hk')
  · rw [bytes_expand hle, ← List.flatMap_def]
  · rw [bytes_expand hle, List.map_map, List.flatMap_def]
    congr 1
    refine List.map_congr_left fun ck hck => ?_
    obtain ⟨hc, hk⟩ := hmem ck hck
    obtain ⟨es, s1, s1', s2, s3⟩ := hdec ck.1 hc
    have hk' : ck.2 < es.length := by rw [s2]; exact hk
    simp only [Function.comp_apply]
    rw [s1', s1]
    simp only [valOf]
    rw [flatten_elem s3 hk', flatten_elem (hel es s3) (by rw [List.length_map]; exact hk'),
      List.getElem_map]

/-- What the streams need of the slices. -/
theorem streams_sliced {p : Profile} {rt : Rt} {hst : Host} {io : Io} {ds : Dataset} {ext : Extents} :
    (∀ xs, streamXdr p rt hst io ds ext = ok ⟨xs, ok ()⟩ →
      ∃ items, ds.chunkSlices p ext = ok ⟨items, ok ()⟩) ∧
    ∀ bs, streamBytes p rt io ds ext = ok ⟨bs, ok ()⟩ →
      ∃ items, ds.chunkSlices p ext = ok ⟨items, ok ()⟩ := by
  constructor
  · intro xs hh
    unfold streamXdr at hh
    obtain ⟨_, -, hh⟩ := bind_eq_ok.1 hh
    obtain ⟨l, hl, -⟩ := bind_eq_ok.1 hh
    exact streamSlices_inv hl
  · intro xs hh
    unfold streamBytes at hh
    obtain ⟨_, -, hh⟩ := bind_eq_ok.1 hh
    obtain ⟨l, hl, -⟩ := bind_eq_ok.1 hh
    exact streamSlices_inv hl

/-- C16 for every selection inside the dataset, in debug builds: the XDR stream ends without error if and
only if the plain stream does, and then it is the XDR encoding, element by element, of what the plain stream
yields. -/
theorem C16_elements {rt : Rt} {hst : Host} {io : Io} {file : List Byte} {ds : Dataset}
    {A : List Nat → List Byte} {ext : Extents} {start count : List Nat}
    (h : Setup .debug io file ds A ext start count)
    (hrt : rt ≠ .currentThread) (ht : XdrType ds.dtype)
    (ho : ds.order ≠ .Unknown ∨ 4 ≤ ds.dsize ∨ ∃ n, ds.dtype = .custom n)
    (hbig : ds.chunkShape.prod * 4 < 2 ^ 63) :
    ((∃ items, streamXdr .debug rt hst io ds ext = ok ⟨items, ok ()⟩) ↔
      ∃ items, streamBytes .debug rt io ds ext = ok ⟨items, ok ()⟩) ∧
    ∀ xs bs, streamXdr .debug rt hst io ds ext = ok ⟨xs, ok ()⟩ →
      streamBytes .debug rt io ds ext = ok ⟨bs, ok ()⟩ →
      ∃ es : List (List Byte), (∀ e ∈ es, e.length = ds.dsize) ∧ bs.flatten = es.flatten ∧
        xs.flatten = (es.map (xdrElem ds.dtype ds.order)).flatten := by
  have hdt := dtype_size h.wf
  have hC : ds.chunkShape.prod * ds.dsize < W := Nat.lt_trans h.sizes.chunk (by decide)
  have hD : count.prod * ds.dsize < W :=
    Nat.lt_of_le_of_lt (Nat.mul_le_mul_right _ (count_prod_le h.wf h.inb)) h.sizes.data
  have hcb := chunkBytes_ok h.wf hC
  have hv := reqBytes_ok h.wf h.sel h.inb hD
  have hpos := chunkBytes_pos h.wf h.sizes
  by_cases hsl : ∃ items, ds.chunkSlices .debug ext = ok ⟨items, ok ()⟩
  · obtain ⟨items, hsl⟩ := hsl
    have hS := sliced_of_debug hcb hv hsl
    have hin := debug_inside h.wf hv hsl
    obtain ⟨x, hx, hlen⟩ := xdrFactor_spec ht
    rw [hdt] at hlen
    have hx4 := xdr_widens hx
    rw [hdt] at hx4
    have hlt : ∀ it ∈ items, it.stop * (ds.dsize * x) < W := by
      intro it hit
      have k1 := hS.lt it hit
      rcases hx4 with hx4 | hx4
      · exact Nat.lt_of_le_of_lt (Nat.mul_le_mul_left _ hx4) k1
      · have := Nat.mul_le_mul (hin it hit) hx4
        have : (2 : Nat) ^ 63 < W := by decide
        omega
    obtain ⟨⟨xitems, xend⟩, x1, x2, x3, -⟩ := streamXdr_spec (hst := hst) h.addr h.opened hcb hpos hS hrt
      hx hlt
    obtain ⟨⟨bitems, bend⟩, b1, b2, b3, -⟩ := streamBytes_spec h.addr h.opened hcb hpos hS hrt
    obtain ⟨r1, r2, es, c1, c2, c3⟩ := xdr_core (hst := hst) h ht ho hlen
      (fun it hit => Nat.le_of_lt (hS.le it hit)) hS.mem hin
    have hxr : xend = ok () := x2.2 r2
    have hbr : bend = ok () := b2.2 r1
    have hxi := x3 hxr
    have hbi := b3 hbr
    simp only at hxi hbi
    rw [x1, b1]
    subst hxr hbr
    refine ⟨⟨fun _ => ⟨_, rfl⟩, fun _ => ⟨_, rfl⟩⟩, ?_⟩
    intro xs bs hxs hbs
    obtain rfl := congrArg Trace.items (Outcome.ok.inj hxs)
    obtain rfl := congrArg Trace.items (Outcome.ok.inj hbs)
    exact ⟨es, c1, by rw [hbi, ← List.flatMap_def]; exact c2, by rw [hxi, ← List.flatMap_def]; exact c3⟩
  · exact ⟨⟨fun ⟨_, hh⟩ => absurd (streams_sliced.1 _ hh) hsl,
      fun ⟨_, hh⟩ => absurd ((streams_sliced (hst := hst)).2 _ hh) hsl⟩,
      fun xs _ hh => absurd (streams_sliced.1 _ hh) hsl⟩

theorem msFirst_inj {o : ByteOrder} {a b : List Byte} (h : msFirst o a = msFirst o b) : a = b := by
  cases o <;> simpa [msFirst] using h

/-- Two elements with the same XDR encoding are the same. -/
theorem xdrElem_inj {d : Datatype} {o : ByteOrder} {a b : List Byte} (hl : a.length = b.length)
    (h : xdrElem d o a = xdrElem d o b) : a = b := by
  cases d with
  | custom n => exact h
  | float n => exact msFirst_inj h
  | uint n =>
    simp only [xdrElem, hl] at h
    exact msFirst_inj (List.append_cancel_left h)
  | int n =>
    simp only [xdrElem, hl] at h
    refine msFirst_inj (List.append_inj_right h (by simp))

/-- Elements with the XDR encodings of the selected elements are the selected elements. -/
theorem xdr_cancel {p : Profile} {io : Io} {file : List Byte} {ds : Dataset} {A : List Nat → List Byte}
    {ext : Extents} {start count : List Nat} (h : Setup p io file ds A ext start count)
    (ht : XdrType ds.dtype) (h0 : 0 < ds.dsize) {es : List (List Byte)}
    (hes : ∀ e ∈ es, e.length = ds.dsize)
    (heq : (es.map (xdrElem ds.dtype ds.order)).flatten =
      (rowMajor start count).flatMap fun x => xdrElem ds.dtype ds.order (A x)) :
    es.flatten = selected A start count := by
  have hdt := dtype_size h.wf
  obtain ⟨x, hx, hlen⟩ := xdrFactor_spec ht
  rw [hdt] at hlen
  have hx0 : 0 < ds.dsize * x := by
    refine Nat.mul_pos h0 (Nat.pos_of_ne_zero fun h0 => ?_)
    subst h0
    unfold xdrFactor at hx
    split at hx
    · cases hx
    · split at hx
      · split at hx
        · cases hx
        · have := Outcome.ok.inj hx
          have := (Nat.div_eq_zero_iff).1 this
          omega
      · cases hx
  have hA : ∀ y, (A y).length = ds.dsize := h.stores.elem
  have heq : es.map (xdrElem ds.dtype ds.order) =
      ((rowMajor start count).map A).map (xdrElem ds.dtype ds.order) := by
    refine flatten_inj hx0 ?_ ?_ ?_
    · intro e he
      obtain ⟨e', he', rfl⟩ := List.mem_map.1 he
      exact hlen _ _ (hes e' he')
    · intro e he
      obtain ⟨e', he', rfl⟩ := List.mem_map.1 he
      obtain ⟨y, -, rfl⟩ := List.mem_map.1 he'
      exact hlen _ _ (hA y)
    · rw [heq, List.map_map, List.flatMap_def]
      rfl
  have hl : ∀ {l m : List (List Byte)}, (∀ e ∈ l, e.length = ds.dsize) →
      (∀ e ∈ m, e.length = ds.dsize) →
      l.map (xdrElem ds.dtype ds.order) = m.map (xdrElem ds.dtype ds.order) → l = m := by
    intro l
    induction l with
    | nil =>
      intro m _ _ hh
      cases m with
      | nil => rfl
      | cons a m => simp at hh
    | cons a l ih =>
      intro m hl hm hh
      cases m with
      | nil => simp at hh
      | cons b m =>
        simp only [List.map_cons, List.cons.injEq] at hh
        rw [xdrElem_inj ((hl a (by simp)).trans (hm b (by simp)).symm) hh.1,
          ih (fun e he => hl e (by simp [he])) (fun e he => hm e (by simp [he])) hh.2]
  rw [hl hes (fun e he => ?_) heq, selected_flatten]
  obtain ⟨y, -, rfl⟩ := List.mem_map.1 he
  exact hA y

/-- C16 in a debug build, exactly: the XDR stream of a writable (`Spec.Writable`) dataset is the XDR encoding of the
selected elements whatever array the file stores, if and only if the selection satisfies `Spec.Good`. -/
theorem C16_exact {rt : Rt} {hst : Host} {ds : Dataset} {N : Nat}
    {inflate : List Byte → Option (List Byte)}
    {ext : Extents} {start count : List Nat} (hP : Writable inflate ds N) (hwf : WF .debug ds)
    (hsel : Selects ext ds.shape start count) (hb : InBounds start count ds.shape)
    (hrt : rt ≠ .currentThread) (ht : XdrType ds.dtype)
    (ho : ds.order ≠ .Unknown ∨ 4 ≤ ds.dsize ∨ ∃ n, ds.dtype = .custom n)
    (hbig : ds.chunkShape.prod * 4 < 2 ^ 63) :
    (∀ file A, Setup .debug ⟨some file, inflate⟩ file ds A ext start count →
      ∃ items, streamXdr .debug rt hst ⟨some file, inflate⟩ ds ext = ok ⟨items, ok ()⟩ ∧
        items.flatten = (rowMajor start count).flatMap fun x => xdrElem ds.dtype ds.order (A x)) ↔
    Good .debug ds start count := by
  constructor
  · intro h
    refine (C15_exact (rt := rt) (inflate := inflate) hP hwf hsel hb hrt).1 fun file A hset => ?_
    obtain ⟨xs, h1, h2⟩ := h file A hset
    obtain ⟨e1, e2⟩ := C16_elements (rt := rt) (hst := hst) hset hrt ht ho hbig
    obtain ⟨bs, hbs⟩ := e1.1 ⟨xs, h1⟩
    obtain ⟨es, k1, k2, k3⟩ := e2 xs bs h1 hbs
    refine ⟨bs, hbs, ?_⟩
    rw [k2]
    exact xdr_cancel hset ht hP.elem.1 k1 (k3.symm.trans h2)
  · intro hg file A hset
    exact C16_partial hset hg hrt ht ho hbig

/-- C16 in a release build, exactly: the XDR stream is right whatever array the file stores if and only if the selection satisfies `Spec.Good`. -/
theorem C16_exact_release {rt : Rt} {hst : Host} {ds : Dataset} {N : Nat}
    {inflate : List Byte → Option (List Byte)}
    {ext : Extents} {start count : List Nat} (hP : Writable inflate ds N) (hwf : WF .release ds)
    (hsel : Selects ext ds.shape start count) (hb : InBounds start count ds.shape)
    (hrt : rt ≠ .currentThread) (ht : XdrType ds.dtype)
    (ho : ds.order ≠ .Unknown ∨ 4 ≤ ds.dsize ∨ ∃ n, ds.dtype = .custom n)
    (hbig : ds.chunkShape.prod * 4 < 2 ^ 63)
    (hsize : ∀ n ∈ ds.shape, count.prod + n * ds.chunkShape.prod < 2 ^ 57) :
    (∀ file A, Setup .release ⟨some file, inflate⟩ file ds A ext start count →
      ∃ items, streamXdr .release rt hst ⟨some file, inflate⟩ ds ext = ok ⟨items, ok ()⟩ ∧
        items.flatten = (rowMajor start count).flatMap fun x => xdrElem ds.dtype ds.order (A x)) ↔
    Good .release ds start count := by
  constructor
  · intro h
    by_cases hshape : ds.shape = []
    · exact good_scalar hb hshape
    refine (C15_exact_release (rt := rt) (inflate := inflate) hP hwf hsel hb hrt hsize).1
      fun file A hset => ?_
    obtain ⟨xs, h1, h2⟩ := h file A hset
    obtain ⟨items, hsl⟩ := streams_sliced.1 _ h1
    have hC : ds.chunkShape.prod * ds.dsize < W := Nat.lt_trans hP.chunk (by decide)
    have hcb := chunkBytes_ok hwf hC
    have hcpos := chunkBytes_pos hwf hset.sizes
    have hdt := dtype_size hwf
    obtain ⟨x, hx, hlen⟩ := xdrFactor_spec ht
    rw [hdt] at hlen
    have hx4 := xdr_widens hx
    rw [hdt] at hx4
    have h16 := hP.elem
    have hdx : ds.dsize * x < 16 := by omega
    have hdx0 : 0 < ds.dsize * x := by
      obtain ⟨c, hc⟩ := chunks_nonempty hwf hb
      have := hlen .LE (List.replicate ds.dsize 0) (by simp)
      rw [← this]
      refine Nat.lt_of_lt_of_le h16.1 ?_
      unfold xdrElem
      have hm : (msFirst .LE (List.replicate ds.dsize (0 : Byte))).length = ds.dsize := by
        simp [msFirst]
      split <;> simp only [List.length_append, hm, List.length_replicate] <;> omega
    have hcz : ds.chunkShape.prod * (ds.dsize * x) < 2 ^ 63 := by
      have h63 := hP.chunk
      rcases hx4 with hx4 | hx4
      · exact Nat.lt_of_le_of_lt (Nat.mul_le_mul_left _ hx4) h63
      · exact Nat.lt_of_le_of_lt (Nat.mul_le_mul_left _ hx4) hbig
    obtain ⟨⟨xitems, xend⟩, x1, x2, x3⟩ := streamXdr_release (hst := hst) hset.addr hset.opened hcb hcpos
      hsl hrt hx
    rw [h1] at x1
    obtain ⟨rfl, rfl⟩ := Trace.mk.inj (Outcome.ok.inj x1)
    have hdec := xdr_chunk (hst := hst) hset ht ho
    have hel : ∀ es : List (List Byte), (∀ e ∈ es, e.length = ds.dsize) →
        ∀ e ∈ es.map (xdrElem ds.dtype ds.order), e.length = ds.dsize * x := by
      intro es hes e he
      obtain ⟨e', he', rfl⟩ := List.mem_map.1 he
      exact hlen _ _ (hes e' he')
    have hn := fine_normal_of hwf hsel hb hshape hsize hsl hdx0 hdx hcz hcz
      (D := fun c => rawD .release ⟨some file, inflate⟩ file ds (ds.chunkShape.prod * ds.dsize) c >>=
        fun b => xdr hst b ds.dtype ds.order)
      (fun c hc v hv => by
        obtain ⟨es, -, s1, s2, s3⟩ := hdec c hc
        rw [s1] at hv
        obtain rfl := Outcome.ok.inj hv
        rw [flatten_length_const (hel es s3), List.length_map, s2]) (x2.1 rfl)
    have hp : ∀ it ∈ items, it.start ≤ it.stop := fun it hit => (hn it hit).1
    have hin : ∀ it ∈ items, it.stop ≤ ds.chunkShape.prod := by
      intro it hit
      obtain ⟨v, hv, hl⟩ := (hn it hit).2.1
      obtain ⟨es, -, s1, s2, s3⟩ := hdec it.chunk (chunkSlices_mem hsl it hit)
      simp only at hv
      rw [s1] at hv
      obtain rfl := Outcome.ok.inj hv
      rw [flatten_length_const (hel es s3), List.length_map, s2] at hl
      exact Nat.le_of_mul_le_mul_right hl hdx0
    obtain ⟨r1, -, es, c1, c2, c3⟩ := xdr_core (hst := hst) hset ht ho hlen
      hp (chunkSlices_mem hsl) hin
    -- the plain stream
    have hW : ∀ it ∈ items, it.start * ds.dsize < W ∧ it.stop * ds.dsize < W := by
      intro it hit
      have := hp it hit
      have h3 := Nat.mul_le_mul_right ds.dsize (hin it hit)
      have h4 := Nat.mul_le_mul_right ds.dsize this
      omega
    obtain ⟨⟨bitems, bend⟩, b1, b2, b3⟩ := streamBytes_release hset.addr hset.opened hcb hcpos hsl hrt
    have hbr : bend = ok () := b2.2 fun it hit => by
      obtain ⟨it', hit', rfl⟩ := List.mem_map.1 hit
      obtain ⟨w1, w2⟩ := hW it' hit'
      have h4 := Nat.mul_le_mul_right ds.dsize (hp it' hit')
      obtain ⟨v, hv, hl⟩ := r1 it' hit'
      simp only [normI, Nat.mod_eq_of_lt w1, Nat.mod_eq_of_lt w2]
      exact ⟨h4, v, hv, by rw [Nat.mul_one]; exact hl⟩
    subst hbr
    refine ⟨bitems, b1, ?_⟩
    have hbi := b3 rfl
    simp only at hbi
    have hxi := x3 rfl
    simp only at hxi
    have e1 : bitems.flatten = items.flatMap (bytesOf (rawD .release ⟨some file, inflate⟩ file ds
        (ds.chunkShape.prod * ds.dsize)) ds.dsize) := by
      rw [hbi, List.flatMap_def]
      congr 1
      refine List.map_congr_left fun it hit => ?_
      obtain ⟨w1, w2⟩ := hW it hit
      unfold bytesN bytesOf normI part
      simp only [Nat.mul_one]
      rw [Nat.mod_eq_of_lt w1, Nat.mod_eq_of_lt w2, Nat.sub_mul]
    have e2 : xs.flatten = items.flatMap (bytesOf (fun c => rawD .release ⟨some file, inflate⟩ file ds
        (ds.chunkShape.prod * ds.dsize) c >>= fun b => xdr hst b ds.dtype ds.order)
        (ds.dsize * x)) := by
      rw [hxi, List.flatMap_def]
      congr 1
      exact List.map_congr_left fun it hit => (hn it hit).2.2
    rw [e1, c2]
    refine xdr_cancel hset ht hP.elem.1 c1 ?_
    rw [← c3, ← e2, h2]
  · exact fun hg file A hset => C16_partial hset hg hrt ht ho hbig

/-- Some content of the file makes the XDR stream of `[2.., 1, 0]` of the 6×2×2 dataset wrong in a debug
build; a release build streams it right. -/
example (inflate : List Byte → Option (List Byte)) :
    (∃ file A, Setup .debug ⟨some file, inflate⟩ file series622 A
        (.extent [.slice 2, .index 1, .index 0]) [2, 1, 0] [4, 1, 1] ∧
      ¬ ∃ items, streamXdr .debug .none .little ⟨some file, inflate⟩ series622
          (.extent [.slice 2, .index 1, .index 0]) = ok ⟨items, ok ()⟩ ∧
        items.flatten = (rowMajor [2, 1, 0] [4, 1, 1]).flatMap fun x =>
          xdrElem series622.dtype series622.order (A x)) ∧
    ∀ file A, Setup .release ⟨some file, inflate⟩ file series622 A
        (.extent [.slice 2, .index 1, .index 0]) [2, 1, 0] [4, 1, 1] →
      ∃ items, streamXdr .release .none .little ⟨some file, inflate⟩ series622
          (.extent [.slice 2, .index 1, .index 0]) = ok ⟨items, ok ()⟩ ∧
        items.flatten = (rowMajor [2, 1, 0] [4, 1, 1]).flatMap fun x =>
          xdrElem series622.dtype series622.order (A x) := by
  constructor
  · by_contra hn
    simp only [not_exists, not_and] at hn
    have := (C16_exact (rt := .none) (hst := .little) (inflate := inflate) (series622_plain.writable (series622_wf .debug) _)
      (series622_wf .debug) (ext := .extent [.slice 2, .index 1, .index 0]) (start := [2, 1, 0])
      (count := [4, 1, 1]) ⟨rfl, rfl, rfl⟩ (by unfold InBounds; decide) (by decide) (.inl rfl)
      (.inl (by decide)) (by decide)).1 fun file A h => by
        by_contra hc
        exact hn file A h (by simpa using hc)
    revert this
    unfold Good
    decide
  · exact ((C16_exact_release (rt := .none) (hst := .little) (inflate := inflate) (series622_plain.writable (series622_wf .debug) _)
      (series622_wf .release) (ext := .extent [.slice 2, .index 1, .index 0]) (start := [2, 1, 0])
      (count := [4, 1, 1]) ⟨rfl, rfl, rfl⟩ (by unfold InBounds; decide) (by decide) (.inl rfl)
      (.inl (by decide)) (by decide) (by decide)).2 (by unfold Good; decide))

end Hidefix.Props
