import Verif.Spec.Common
import Verif.Props.Aligned
import Verif.Proofs.Within
import Verif.Proofs.UncutGood
import Verif.Proofs.Matrix
import Verif.Props.Reading
import Verif.Props.Streaming
import Verif.Props.Remote
import Verif.Props.Values
import Verif.Props.Open
import Verif.Props.StreamValues
import Verif.Props.Python

/-!
# Property C77: common selections are read right by every reader
-/

set_option autoImplicit false

namespace Hidefix.Props
open Hidefix Hidefix.Spec Hidefix.Proofs Outcome

theorem tot_ones {L : List Dim} (h : ∀ d ∈ L, d.cnt = 1) : tot L = 1 := by
  induction L with
  | nil => rfl
  | cons d R ih =>
    have h1 := h d (by simp)
    have h2 := ih fun x hx => h x (by simp [hx])
    unfold tot at h2 ⊢
    rw [List.map_cons, List.prod_cons, h2, h1]

theorem okRun_ones {p : Profile} {L : List Dim} (hL : ∀ d ∈ L, DimOk d ∧ d.cnt = 1) (c : Nat) :
    okRun p c L = true := by
  induction L generalizing c with
  | nil => rfl
  | cons d R ih =>
    have hR : ∀ x ∈ R, DimOk x ∧ x.cnt = 1 := fun x hx => hL x (by simp [hx])
    obtain ⟨hd, h1⟩ := hL d (by simp)
    have ht : tot R = 1 := tot_ones fun x hx => (hR x hx).2
    rw [okRun]
    split
    · exact ih hR c
    · split
      · exact ih hR _
      · simp only [Bool.and_eq_true, List.all_eq_true, List.mem_range, Bool.or_eq_true, ht, beq_self_eq_true,
          or_true, true_or, and_true, true_and, decide_eq_true_eq]
        intro o ho
        have := (dim_facts hd ho).2.2.2.2.2.1
        right; omega

theorem goodFrom_ones {p : Profile} {L : List Dim} (hL : ∀ d ∈ L, DimOk d ∧ d.cnt = 1) (k : Nat) :
    goodFrom p k L = true := by
  induction L generalizing k with
  | nil => rfl
  | cons d R ih =>
    rw [goodFrom]
    split
    · exact ih (fun x hx => hL x (by simp [hx])) _
    · exact okRun_ones hL k

/-- The dimension selects a part of one chunk. -/
structure OneChunk (d : Dim) : Prop where
  ok : DimOk d
  part : d.idx % d.cs + d.cnt ≤ d.cs

theorem OneChunk.seg {d : Dim} (h : OneChunk d) {o : Nat} (ho : o < d.cnt) (hs : d.segStart o = true) :
    o = 0 := by
  simp only [Dim.segStart, Bool.or_eq_true, beq_iff_eq] at hs
  rcases hs with hs | hs
  · exact hs
  · have := h.part
    have hcs := h.ok.cs
    by_contra hne
    have e : (d.idx + o) % d.cs = d.idx % d.cs + o := by
      rw [Nat.add_mod, Nat.mod_eq_of_lt (a := o) (by omega), Nat.mod_eq_of_lt (by omega)]
    omega

theorem OneChunk.cce {d : Dim} (h : OneChunk d) : d.cnt ≤ d.cce 0 := by
  have h1 := h.ok.fit
  have h2 := h.part
  have h3 := h.ok.cs
  unfold Dim.cce Dim.coff
  rw [Nat.add_zero]
  have := Nat.div_add_mod d.idx d.cs
  rw [Nat.mul_comm] at this
  omega

theorem OneChunk.csz {d : Dim} (h : OneChunk d) (h1 : d.csz 0 = 1) : d.cnt = 1 := by
  have := (dim_facts h.ok h.ok.cnt)
  have h2 := h.cce
  have h3 := h.ok.cnt
  have h4 : d.coff 0 ≤ d.idx := by unfold Dim.coff; rw [Nat.add_zero]; exact Nat.div_mul_le_self _ _
  omega

/-- Exact dimensions (inner), a part of one chunk, one index in the others. -/
structure Run (E : List Dim) (d : Dim) (S : List Dim) : Prop where
  inner : ∀ e ∈ E, DimOk e ∧ e.exact = true
  mid : OneChunk d
  outer : ∀ e ∈ S, DimOk e ∧ e.cnt = 1

theorem okFrom_run {E : List Dim} {d : Dim} {S : List Dim} (h : Run E d S) :
    okFrom true false (E ++ d :: S) = true := by
  have htot : tot S = 1 := tot_ones fun x hx => (h.outer x hx).2
  induction E with
  | nil =>
    rw [List.nil_append, okFrom, Bool.or_eq_true]
    by_cases h1 : d.cnt = 1
    · left
      have : tot (d :: S) = 1 := tot_ones fun x hx => by
        rcases List.mem_cons.1 hx with rfl | hx
        · exact h1
        · exact (h.outer x hx).2
      simp [this]
    · right
      rw [List.all_eq_true]
      intro o ho
      rw [List.mem_range] at ho
      by_cases hs : d.segStart o = true
      · obtain rfl := h.mid.seg ho hs
        have hc : ¬ d.csz 0 = 1 := fun hc => h1 (h.mid.csz hc)
        have hS : ∀ ex, okFrom ex false S = true := by
          intro ex
          cases S with
          | nil => rfl
          | cons e S => rw [okFrom, htot]; rfl
        have : 0 + 1 < d.cnt := by omega
        simp only [hc, beq_iff_eq, ↓reduceIte, this, hS, decide_true, Bool.true_or, Bool.or_true, Bool.and_true]
      · simp [hs]
  | cons e E ih =>
    have hR := ih ⟨fun x hx => h.inner x (by simp [hx]), h.mid, h.outer⟩
    obtain ⟨hd, hex⟩ := h.inner e (by simp)
    have hm := hex
    simp only [Dim.exact, Bool.and_eq_true, beq_iff_eq] at hm
    have hO : OneChunk e := ⟨hd, by omega⟩
    have hfull := exact_full hd hex
    rw [List.cons_append, okFrom, Bool.or_eq_true]
    right
    rw [List.all_eq_true]
    intro o ho
    rw [List.mem_range] at ho
    by_cases hs : e.segStart o = true
    · obtain rfl := hO.seg ho hs
      by_cases hc : e.csz 0 = 1
      · simp [hc, hO.csz hc, hex, hfull, hR]
      · have : 1 < e.cnt := by
          have := hd.fit
          have h0 : e.csz 0 = e.cs := by
            unfold Dim.csz Dim.coff
            rw [Nat.add_zero, Nat.div_mul_cancel (Nat.dvd_of_mod_eq_zero hm.1)]
            omega
          have := hd.cnt
          omega
        simp [hc, this, hex, hR]
    · simp [hs]

theorem okRun_run {p : Profile} {E : List Dim} {d : Dim} {S : List Dim} (h : Run E d S) (c : Nat) :
    okRun p c (E ++ d :: S) = true := by
  have htot : tot S = 1 := tot_ones fun x hx => (h.outer x hx).2
  induction E generalizing c with
  | nil =>
    rw [List.nil_append, okRun]
    split
    · exact okRun_ones h.outer c
    · split
      · exact okRun_ones h.outer _
      · simp only [Bool.and_eq_true, List.all_eq_true, List.mem_range, Bool.or_eq_true, htot, beq_self_eq_true,
          or_true, true_or, and_true, true_and, decide_eq_true_eq, Bool.not_eq_true']
        intro o ho
        by_cases hs : d.segStart o = true
        · obtain rfl := h.mid.seg ho hs
          exact .inr h.mid.cce
        · exact .inl (.inl (by simpa using hs))
  | cons e E ih =>
    have hR : Run E d S := ⟨fun x hx => h.inner x (by simp [hx]), h.mid, h.outer⟩
    obtain ⟨hd, hex⟩ := h.inner e (by simp)
    have hm := hex
    simp only [Dim.exact, Bool.and_eq_true, beq_iff_eq] at hm
    have hO : OneChunk e := ⟨hd, by omega⟩
    rw [List.cons_append, okRun]
    split
    · exact ih hR c
    · split
      · exact ih hR _
      · rename_i h1 h2
        simp only [hex, Bool.true_and, decide_eq_true_eq] at h2
        simp only [Bool.and_eq_true, List.all_eq_true, List.mem_range, Bool.or_eq_true,
          Bool.not_eq_true', decide_eq_true_eq]
        refine ⟨fun o ho => ?_, .inr (by rw [hex]; exact okFrom_run hR)⟩
        by_cases hs : e.segStart o = true
        · obtain rfl := hO.seg ho hs
          have := hO.cce
          left; right; exact ⟨by omega, .inr (by omega)⟩
        · left; left; simpa using hs

theorem goodFrom_run {p : Profile} {E : List Dim} {d : Dim} {S : List Dim} (h : Run E d S) (k : Nat) :
    goodFrom p k (E ++ d :: S) = true := by
  induction E generalizing k with
  | nil =>
    rw [List.nil_append, goodFrom]
    split
    · exact goodFrom_ones h.outer _
    · exact okRun_run (E := []) h k
  | cons e E ih =>
    rw [List.cons_append, goodFrom]
    split
    · exact ih ⟨fun x hx => h.inner x (by simp [hx]), h.mid, h.outer⟩ _
    · exact okRun_run (E := e :: E) h k

theorem dimsOf_split (is ns cs ss js ms ds ts : List Nat) (h1 : is.length = ss.length)
    (h2 : ns.length = ss.length) (h3 : cs.length = ss.length) :
    dimsOf (is ++ js) (ns ++ ms) (cs ++ ds) (ss ++ ts) = dimsOf js ms ds ts ++ dimsOf is ns cs ss := by
  induction ss generalizing is ns cs with
  | nil =>
    simp only [List.length_nil, List.length_eq_zero_iff] at h1 h2 h3
    subst h1 h2 h3
    cases js <;> simp [dimsOf]
  | cons s ss ih =>
    cases is with
    | nil => simp at h1
    | cons i is =>
      cases ns with
      | nil => simp at h2
      | cons n ns =>
        cases cs with
        | nil => simp at h3
        | cons c cs =>
          simp only [List.length_cons, Nat.add_right_cancel_iff] at h1 h2 h3
          simp only [List.cons_append, dimsOf, ih is ns cs h1 h2 h3, List.append_assoc]

theorem dimsOf_cnt {is ns cs ss : List Nat} {P : Nat → Prop} (h : ∀ n ∈ ns, P n) :
    ∀ d ∈ dimsOf is ns cs ss, P d.cnt := by
  induction is generalizing ns cs ss with
  | nil => simp [dimsOf]
  | cons i is ih =>
    cases ns with
    | nil => simp [dimsOf]
    | cons n ns =>
      cases cs with
      | nil => simp [dimsOf]
      | cons c cs =>
        cases ss with
        | nil => simp [dimsOf]
        | cons s ss =>
          intro d hd
          simp only [dimsOf, List.mem_append, List.mem_singleton] at hd
          rcases hd with hd | rfl
          · exact ih (fun x hx => h x (by simp [hx])) d hd
          · exact h n (by simp)

theorem dimsOf_exact {js cs ts : List Nat} (h : ∀ t ∈ js.zip cs, t.1 % t.2 = 0) :
    ∀ d ∈ dimsOf js cs cs ts, d.exact = true := by
  induction js generalizing cs ts with
  | nil => simp [dimsOf]
  | cons j js ih =>
    cases cs with
    | nil => simp [dimsOf]
    | cons c cs =>
      cases ts with
      | nil => simp [dimsOf]
      | cons t ts =>
        simp only [List.zip_cons_cons, List.mem_cons, forall_eq_or_imp] at h
        intro d hd
        simp only [dimsOf, List.mem_append, List.mem_singleton] at hd
        rcases hd with hd | rfl
        · exact ih h.2 d hd
        · simp [Dim.exact, h.1]

theorem dimsOf_inside {is ns cs ss : List Nat} (h : InOneChunk ss cs is ns) :
    ∀ d ∈ dimsOf is ns cs ss, d.idx % d.cs + d.cnt ≤ d.cs ∧ d.idx / d.cs * d.cs + d.cs ≤ d.shp := by
  induction is generalizing ns cs ss with
  | nil => simp [dimsOf]
  | cons i is ih =>
    cases ns with
    | nil => simp [dimsOf]
    | cons n ns =>
      cases cs with
      | nil => simp [dimsOf]
      | cons c cs =>
        cases ss with
        | nil => simp [dimsOf]
        | cons s ss =>
          intro d hd
          simp only [dimsOf, List.mem_append, List.mem_singleton] at hd
          rcases hd with hd | rfl
          · exact ih (fun t ht => h t (by simp only [List.zip_cons_cons, List.mem_cons]; exact .inr ht)) d hd
          · exact h ((i, n), (c, s)) (by simp)

/-- A selection inside one uncut chunk is `Good` if and only if it does not single out an index or take too few. -/
theorem good_within {p : Profile} {ds : Dataset} {start count : List Nat} (hwf : WF p ds)
    (hb : InBounds start count ds.shape) (hin : InOneChunk ds.shape ds.chunkShape start count) :
    Good p ds start count ↔ ¬ (SingledOut ds.chunkShape count ∨ Overdrawn ds.chunkShape count) := by
  unfold Good
  have hI := dimsOf_inside hin
  obtain ⟨hS, -, e2⟩ := sel_of hwf hb
  have e3 := hS.cs
  have hd := hS.dims
  generalize dimsOf start count ds.chunkShape ds.shape = L at *
  have hzip : ds.chunkShape.zip count = (L.map fun d => (d.cs, d.cnt)).reverse := by
    rw [e2, e3, List.zip, ← List.reverse_zipWith (by simp)]
    congr 1
    exact List.zip_map' ..
  rw [good_inside fun d h => ⟨hd d h, (hI d h).1, (hI d h).2⟩, not_iff_not]
  refine or_congr ?_ ?_
  · unfold SingledOut
    rw [hzip]
    constructor
    · rintro ⟨E, x, S, rfl, h0, h1, h2, h3, y, hy, h4⟩
      refine ⟨(S.map fun d => (d.cs, d.cnt)).reverse, (x.cs, x.cnt), (E.map fun d => (d.cs, d.cnt)).reverse,
        by simp, by simpa using h0, ?_, h2, h3, (y.cs, y.cnt), by simpa using ⟨y, hy, rfl, rfl⟩, h4⟩
      intro z hz
      simp only [List.mem_reverse, List.mem_map] at hz
      obtain ⟨e, he, rfl⟩ := hz
      exact h1 e he
    · rintro ⟨o, x, i, h, h0, h1, h2, h3, y, hy, h4⟩
      rw [List.reverse_eq_iff] at h
      simp only [List.reverse_append, List.reverse_cons, List.append_assoc, List.singleton_append] at h
      obtain ⟨E, T, rfl, hE, hT⟩ := List.map_eq_append_iff.1 h
      obtain ⟨d, S, rfl, rfl, hS'⟩ := List.map_eq_cons_iff.1 hT
      refine ⟨E, d, S, rfl, ?_, ?_, h2, h3, ?_⟩
      · rintro rfl
        simp at hE
        exact h0 hE
      · intro e he
        exact h1 (e.cs, e.cnt) (by rw [← List.mem_reverse, ← hE]; exact List.mem_map_of_mem he)
      · rw [← List.mem_reverse, ← hS'] at hy
        obtain ⟨e, he, rfl⟩ := List.mem_map.1 hy
        exact ⟨e, he, h4⟩
  · unfold Overdrawn Over lead
    rw [hzip, List.reverse_reverse, e3, List.reverse_reverse]

/-- If the last two dimensions of the chunk are not both 1, only a selection that singles out an index is misread. -/
theorem overdrawn_singledOut {p : Profile} {ds : Dataset} {start count : List Nat} (hwf : WF p ds)
    (hb : InBounds start count ds.shape) (hin : InOneChunk ds.shape ds.chunkShape start count)
    (h11 : ∀ l, ds.chunkShape ≠ l ++ [1, 1]) (ho : Overdrawn ds.chunkShape count) : SingledOut ds.chunkShape count := by
  have hI := dimsOf_inside hin
  obtain ⟨hS, -, e2⟩ := sel_of hwf hb
  have e3 := hS.cs
  have hd := hS.dims
  generalize dimsOf start count ds.chunkShape ds.shape = L at *
  have hzip : ds.chunkShape.zip count = (L.map fun d => (d.cs, d.cnt)).reverse := by
    rw [e2, e3, List.zip, ← List.reverse_zipWith (by simp)]
    congr 1
    exact List.zip_map' ..
  have ho : Over (lead L) L := by
    unfold Overdrawn at ho
    unfold Over lead
    rwa [hzip, List.reverse_reverse, e3, List.reverse_reverse] at ho
  obtain ⟨E, x, S, rfl, h0, h1, h2, h3, y, hy, h4⟩ :=
    over_single (fun d h => ⟨hd d h, (hI d h).1, (hI d h).2⟩) (fun d d' R h g => h11 (R.map Dim.cs).reverse (by
      rw [e3, h]; simp [g.1, g.2])) ho
  refine ⟨(S.map fun d => (d.cs, d.cnt)).reverse, (x.cs, x.cnt), (E.map fun d => (d.cs, d.cnt)).reverse,
    by simp [hzip], by simpa using h0, ?_, h2, h3, (y.cs, y.cnt), by simpa using ⟨y, hy, rfl, rfl⟩, h4⟩
  intro z hz
  simp only [List.mem_reverse, List.mem_map] at hz
  obtain ⟨e, he, rfl⟩ := hz
  exact h1 e he

/-- The slicer handles common selections correctly. -/
theorem common_good {p : Profile} {ds : Dataset} {start count : List Nat} (hwf : WF p ds)
    (hb : InBounds start count ds.shape) (hc : Common ds.shape ds.chunkShape start count) :
    Good p ds start count := by
  have hdims := (sel_of hwf hb).1.dims
  cases hc with
  | element h => exact goodFrom_ones (fun d hd => ⟨hdims d hd, dimsOf_cnt h d hd⟩) 0
  | table h hr => exact (good_matrix_iff hwf hb h).2 hr
  | lastDim hs hc hi hn h =>
    subst hi hn
    exact good_last_dim hwf hb hc hs h
  | run hs hc hi hn hlen hout hpart hin halign =>
    rename_i is js ns ms cs ds' ss ts i n c s
    subst hi hn hin
    have l1 := hb.1
    have l2 := hb.2.1
    have l3 := hwf.rank
    unfold Good good
    rw [hc, hs] at hdims ⊢
    rw [hs] at l1 l2 l3
    rw [hc] at l3
    obtain ⟨a1, a2, a3⟩ := hlen
    rw [dimsOf_split is ns cs ss _ _ _ _ a2 a3 a1.symm] at hdims ⊢
    have e : dimsOf (i :: js) (n :: ms) (c :: ms) (s :: ts) = dimsOf js ms ms ts ++ [⟨i, n, c, s⟩] := rfl
    rw [e, List.append_assoc] at hdims ⊢
    refine goodFrom_run ⟨fun d hd => ⟨hdims d (by simp [hd]), dimsOf_exact halign d hd⟩,
      ⟨hdims _ (by simp), hpart⟩, fun d hd => ⟨hdims d (by simp [hd]), dimsOf_cnt hout d hd⟩⟩ 0
  | chunks hwhole hn hc h2 hunit => exact good_whole_chunks hwf hb hwhole hn hc h2 hunit
  | inside hin hs => exact (good_within hwf hb hin).2 hs
  | uncut hu ha => exact good_of_not_lost hwf hb hu ha

/-! ## C77 -/

/-- C77 for the readers that fill a destination: the caching reader after any history of reads, the direct
reader, the parallel reader under every schedule, and S3 with the requests completing in any order. -/
theorem C77_read {p : Profile} {io : Io} {file : List Byte} {ds : Dataset} {A : List Nat → List Byte}
    {ext : Extents} {start count : List Nat} {rd : CacheReader} {dst : List Byte}
    {sort : List GItem → List GItem} {server : Server} {complete : List Request → List Request}
    (h : Setup p io file ds A ext start count) (hc : Common ds.shape ds.chunkShape start count)
    (hrd : CacheReader.withDataset p ds = ok rd) (hist : List (Extents × List Byte))
    (hsort : ∀ l, SortedByAddr l (sort l)) (hd : count.prod * ds.dsize ≤ dst.length) :
    let right := (ok (count.prod * ds.dsize), selected A start count ++ dst.drop (count.prod * ds.dsize))
    ((((afterReads p io file ds rd hist).readTo p io file ds ext dst).1,
      ((afterReads p io file ds rd hist).readTo p io file ds ext dst).2.1) = right) ∧
    directReadTo p io ds sort ext dst = right ∧
    (∀ res, DirectReadToPar p io ds sort ext dst res ↔ res = right) ∧
    ((∀ c ∈ ds.chunks, 0 < c.size) → Serves file server → (∀ l, (complete l).Perm l) →
      s3ReadTo p io.inflate ds sort server complete ext dst = right) := by
  have hg := common_good h.wf h.inb hc
  obtain ⟨a, b⟩ := C01_cache_partial h hg hrd hist hd
  exact ⟨Prod.ext a b, C01_direct_partial h hg hsort hd, C01_par_partial h hg hsort hd,
    fun h1 h2 h3 => C17_stored_partial h hg h1 h2 hsort h3 hd⟩

/-- C77 for streams: the items, one after the other, are the selected elements. -/
theorem C77_stream {p : Profile} {rt : Rt} {io : Io} {file : List Byte} {ds : Dataset}
    {A : List Nat → List Byte} {ext : Extents} {start count : List Nat}
    (h : Setup p io file ds A ext start count) (hc : Common ds.shape ds.chunkShape start count)
    (hrt : rt ≠ .currentThread) :
    ∃ items, streamBytes p rt io ds ext = ok ⟨items, ok ()⟩ ∧ items.flatten = selected A start count :=
  C15_partial h (common_good h.wf h.inb hc) hrt

/-- C77 for XDR streams of the types that indexing a file produces: the items, one after the other, are the
selected elements in XDR. -/
theorem C77_xdr {p : Profile} {rt : Rt} {hst : Host} {io : Io} {file : List Byte} {ds : Dataset}
    {A : List Nat → List Byte} {ext : Extents} {start count : List Nat}
    (h : Setup p io file ds A ext start count) (hc : Common ds.shape ds.chunkShape start count)
    (hrt : rt ≠ .currentThread) (ht : XdrType ds.dtype)
    (ho : ds.order ≠ .Unknown ∨ 4 ≤ ds.dsize ∨ ∃ n, ds.dtype = .custom n)
    (hbig : ds.chunkShape.prod * 4 < 2 ^ 63) :
    ∃ items, streamXdr p rt hst io ds ext = ok ⟨items, ok ()⟩ ∧
      items.flatten = (rowMajor start count).flatMap fun x => xdrElem ds.dtype ds.order (A x) :=
  C16_partial h (common_good h.wf h.inb hc) hrt ht ho hbig

/-- C77 for typed values on a little-endian host, or of integers on any host: by the caching reader after any
history, the direct reader, the parallel reader under every schedule, and as a stream. -/
theorem C77_values {p : Profile} {hst : Host} {t : Prim} {io : Io} {file : List Byte}
    {ds : Dataset} {A : List Nat → List Byte} {ext : Extents} {start count : List Nat}
    {cr : CacheReader} {sort : List GItem → List GItem} {rd : ByteReader} {rt : Rt}
    (h : Setup p io file ds A ext start count) (hc : Common ds.shape ds.chunkShape start count)
    (hcr : CacheReader.withDataset p ds = ok cr) (hist : List (Extents × List Byte))
    (hsort : ∀ l, SortedByAddr l (sort l)) (hrd : ∀ dst, DirectReadToPar p io ds sort ext dst (rd ext dst))
    (hrt : rt ≠ .currentThread) (ht : t.size = ds.dsize) (hs : Swaps hst t ∨ ds.order ≠ .LE)
    (hmem : count.prod * ds.dsize < 2 ^ 63) :
    let Right := fun vs => vs.length = count.prod ∧ SameValues hst ds.order ((rowMajor start count).map A) vs
    (∃ vs, values p hst t ds (fun e d =>
        (((afterReads p io file ds cr hist).readTo p io file ds e d).1,
         ((afterReads p io file ds cr hist).readTo p io file ds e d).2.1)) ext = ok vs.flatten ∧ Right vs) ∧
    (∃ vs, values p hst t ds (directReadTo p io ds sort) ext = ok vs.flatten ∧ Right vs) ∧
    (∃ vs, values p hst t ds rd ext = ok vs.flatten ∧ Right vs ∧
      ∀ junk, valuesDynPar p hst t ds rd ext junk = ok (count, vs.flatten)) ∧
    (∃ vss : List (List (List Byte)),
      streamValues p rt hst io ds t ext = ok ⟨vss.map fun vs => ok vs.flatten, ok ()⟩ ∧ Right vss.flatten) := by
  have hg := common_good h.wf h.inb hc
  obtain ⟨v1, a1, a2, a3⟩ := C24_cache_partial h hg hcr hist ht hs hmem
  obtain ⟨v2, b1, b2, b3⟩ := C24_direct_partial h hg hsort ht hs hmem
  obtain ⟨v3, c1, c2, c3, c4⟩ := C24_par_partial h hg hsort hrd ht hs hmem
  obtain ⟨v4, d1, d2, d3⟩ := C60_partial h hg hrt ht hs
  exact ⟨⟨v1, a1, a2, a3⟩, ⟨v2, b1, b2, b3⟩, ⟨v3, c1, ⟨c2, c3⟩, c4⟩, ⟨v4, d1, d2, d3⟩⟩

/-- C77 from the file on: index it, write the index, load it, look a dataset up by its path and read a common
selection with a reader, a stream or a parallel reader. -/
theorem C77_file {p : Profile} {fs : Fs} {inflate : List Byte → Option (List Byte)} {path : Name}
    {file : List Byte} {root : H5Group} {idx : Index} {names : List Name} {d : Name} {h : H5Dataset}
    {t : H5Type} {A : List Nat → List Byte} {ext : Extents} {start count : List Nat}
    (hpath : FitsU64 path.length ∧ IsUtf8 path) (hfs : fs path = some file)
    (hroot : IsH5Group root) (hw : WellNamed root)
    (hi : Index.indexFile p (some path) root = ok idx)
    (hhas : HasDataset root names d h) (halloc : HasStorage h)
    (hnames : ∀ n ∈ names ++ [d], Plain n ∧ n ≠ []) (hr : H5Readable inflate file h t A)
    (hsel : Selects ext h.shape start count) (hin : InBounds start count h.shape)
    (hc : Common h.shape (chunkShapeOf h) start count) :
    ∃ bytes idx', idx.save = ok bytes ∧ Index.load bytes = ok idx' ∧ ∀ k : Nat,
      let s := List.replicate k sep ++ joinPath (names ++ [d])
      (∃ r, idx'.root.reader p fs s = ok r ∧ ∀ (hist : List (Extents × List Byte)) (dst : List Byte),
        dst.length = count.prod * t.size →
        ((afterOpenReads p inflate r hist).readTo p inflate ext dst).1 = ok (count.prod * t.size) ∧
        ((afterOpenReads p inflate r hist).readTo p inflate ext dst).2.1 = selected A start count) ∧
      (∃ r, idx'.root.streamer p s = ok r ∧ ∀ rt : Rt, rt ≠ .currentThread → ∃ items,
        r.stream p rt fs inflate ext = ok ⟨items, ok ()⟩ ∧ items.flatten = selected A start count) ∧
      (∃ ds r, idx'.root.dataset s = some ds ∧ ds.asParReader p path = ok r ∧
        ∀ (sort : List GItem → List GItem), (∀ l, SortedByAddr l (sort l)) → ∀ dst : List Byte,
          dst.length = count.prod * t.size →
          r.readTo p fs inflate sort ext dst = (ok (count.prod * t.size), selected A start count)) := by
  refine C57_partial hpath hfs hroot hw hi hhas halloc hnames hr hsel hin ?_
  obtain ⟨ds, hds⟩ : ∃ ds, DatasetD.index p h = ok ds := by
    by_contra hno
    exact C38_fails hw hhas halloc (fun x hx => hno ⟨x, hx⟩) idx hi
  have hds' : Dataset.index p h.shape.length h = ok ds := by
    unfold DatasetD.index at hds
    split at hds
    · exact hds
    · simp at hds
  obtain ⟨s1, s2, s3, s4, s5⟩ := stores_of_index hds' hr.cells hr.fits hr.dtype hr.filters hr.masks hr.stores
  have := common_good (start := start) (count := count) (C34_wf hds' hr.cells hr.fits) (by rw [s3]; exact hin) (by rw [s3, s4]; exact hc)
  unfold Good at this
  rwa [s3, s4] at this

/-- C77 from Python: `ds[items]` is what numpy gives, if no item is `-1` (`not_C39`) and none selects nothing. -/
theorem C77_python {p : Profile} {hst : Host} {t : Prim} {io : Io} {file : List Byte} {ds : Dataset}
    {A : List Nat → List Byte} {items : List PyItem} {ls : List (List Nat)}
    {sort : List GItem → List GItem} {rd : ByteReader}
    (hwf : WF p ds) (had : AddrDet ds) (hio : io.file = some file) (hst' : Stores io.inflate file ds A)
    (hsz : Sizes file ds) (ht : ds.dtype = numpyType t) (hsw : Swaps hst t ∨ ds.order ≠ .LE)
    (hsort : ∀ l, SortedByAddr l (sort l))
    (hrd : ∀ ext dst, DirectReadToPar p io ds sort ext dst (rd ext dst))
    (hn : ∀ n ∈ ds.shape, n < 2 ^ 63) (hsel : numpySelect ds.shape items = some ls)
    (hne : ∀ l ∈ ls, l ≠ []) (h1 : PyItem.int (-1) ∉ items)
    (hb : InBounds (firsts ls) (ls.map List.length) ds.shape)
    (hc : Common ds.shape ds.chunkShape (firsts ls) (ls.map List.length))
    (hmem : (ls.map List.length).prod * ds.dsize < 2 ^ 63) :
    ∃ vs, (∀ junk, pyGetItem p hst ds rd junk items =
        ok (t, squeezed (ls.map List.length), vs.flatten)) ∧
      SameValues hst ds.order ((combine ls).map A) vs :=
  C39_partial hwf had hio hst' hsz ht hsw hsort hrd hn hsel hne h1 (common_good hwf hb hc) hmem

/-! ## Examples -/

/-- Rows 1 and 2 without the first column: not a whole chunk in the last dimension. -/
example : Common Demo.ds.shape Demo.ds.chunkShape [1, 1] [2, 3] :=
  .table (by decide) (not_ragged (s₁ := 4) (c₀ := 2) (c₁ := 2) rfl rfl rfl rfl (.inl (by decide)))

/-- Everything, from the file: three rows and four columns in chunks of 2 by 2. -/
example : Common Demo.ds.shape Demo.ds.chunkShape [0, 0] [3, 4] :=
  .lastDim (is := [0]) (ns := [3]) (cs := [2]) (ss := [3]) (i := 0) (n := 4) (c := 2) (s := 4) rfl rfl rfl rfl (by decide)

/-- One element. -/
example : Common Demo.ds.shape Demo.ds.chunkShape [2, 3] [1, 1] := .element (by decide)

/-- Two planes of a contiguous dataset of shape 5×3×4. -/
example : Common [5, 3, 4] [5, 3, 4] [1, 0, 0] [2, 3, 4] :=
  .run (ss := []) (ts := [3, 4]) (cs := []) (ds := [3, 4]) (is := []) (js := [0, 0]) (ns := []) (ms := [3, 4])
    (i := 1) (n := 2) (c := 5) (s := 5) rfl rfl rfl rfl (by decide) (by decide) (by decide) rfl (by decide)

/-- Two rows of one of its planes. -/
example : Common [5, 3, 4] [5, 3, 4] [3, 1, 0] [1, 2, 4] :=
  .run (ss := [5]) (ts := [4]) (cs := [5]) (ds := [4]) (is := [3]) (js := [0]) (ns := [1]) (ms := [4])
    (i := 1) (n := 2) (c := 3) (s := 3) rfl rfl rfl rfl (by decide) (by decide) (by decide) rfl (by decide)

/-- Two by one chunks of 2×2×2 of a dataset of shape 4×4×4. -/
example : Common [4, 4, 4] [2, 2, 2] [0, 2, 2] [4, 2, 2] := by
  refine .chunks (n := 2) (c := 2) (fun k i n c s h1 h2 h3 h4 => ?_) rfl rfl (by decide)
    (.inr fun j k i n c s hj hk h1 h2 h3 h4 h => ?_)
  · match k with
    | 0 => simp at h1 h2 h3 h4; subst h1 h2 h3 h4; simp
    | 1 => simp at h1 h2 h3 h4; subst h1 h2 h3 h4; simp
    | 2 => simp at h1 h2 h3 h4; subst h1 h2 h3 h4; simp
    | k + 3 => simp at h1
  · match k with
    | 0 => omega
    | 1 => simp at h1 h2 h3 h4; subst h1 h2 h3 h4; simp at h
    | k + 2 => simp at hk; omega

/-- All hypotheses are met by the demo dataset, read without its first column and row. -/
example (p : Profile) : ∃ rd, CacheReader.withDataset p Demo.ds = ok rd ∧
    directReadTo p Demo.io Demo.ds sortByAddr Demo.ext (List.replicate 12 7) =
      (ok 12, selected Demo.A [1, 1] [2, 3]) := by
  obtain ⟨rd, hrd⟩ := C01_cache_open (Demo.setup p)
  refine ⟨rd, hrd, ?_⟩
  obtain ⟨-, h, -⟩ := C77_read (dst := List.replicate 12 7) (server := fun _ _ => none) (complete := id)
    (Demo.setup p)
    (.table (by decide) (not_ragged (s₁ := 4) (c₀ := 2) (c₁ := 2) rfl rfl rfl rfl (.inl (by decide)))) hrd [] sortByAddr_ok
    (by decide)
  rw [h]
  have : ([2, 3] : List Nat).prod * Demo.ds.dsize = 12 := rfl
  rw [this]
  simp

end Hidefix.Props
