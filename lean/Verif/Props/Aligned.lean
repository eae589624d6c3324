import Verif.Props.Slicing
import Verif.Props.Reading

/-!
# C03: selections a user can recognise without computing `Good`
-/

set_option autoImplicit false

namespace Hidefix.Props
open Hidefix Hidefix.Spec Hidefix.Proofs Outcome

/-! ## Rank two -/

theorem okFrom_single {ex : Bool} {d : Dim} (hd : DimOk d)
    (h : ex = true ∨ d.cnt = 1 ∨ d.cs = 1) : okFrom ex false [d] = true := by
  simp only [okFrom, tot, List.map_cons, List.map_nil, List.prod_cons, List.prod_nil, Nat.mul_one,
    Bool.or_eq_true, beq_iff_eq, List.all_eq_true, List.mem_range]
  by_cases h1 : d.cnt = 1
  · exact .inl h1
  · right
    intro o ho
    by_cases hlast : o + 1 = d.cnt
    · left; right; simp [hlast]
    · right
      obtain ⟨f1, f2, f3, f4, f5, f6, f7⟩ := dim_facts hd ho
      have hfit := hd.fit
      have hcce : ex = true ∨ o + 1 = d.cce o := by
        rcases h with h | h | h
        · exact .inl h
        · exact absurd h h1
        · right; omega
      have hlt : o + 1 < d.cnt := by omega
      split
      · simp [hlast]
      · rcases hcce with h | h
        · simp [hlt, h]
        · simp [hlt, ← h]

theorem good_rank_two {p : Profile} {ds : Dataset} {s₀ s₁ c₀ c₁ i₀ i₁ n₀ n₁ : Nat}
    (hwf : WF p ds) (hs : ds.shape = [s₀, s₁]) (hc : ds.chunkShape = [c₀, c₁])
    (hb : InBounds [i₀, i₁] [n₀, n₁] ds.shape)
    (h : ¬ (i₁ % c₁ = 0 ∧ i₁ + n₁ = s₁ ∧ n₁ < c₁) ∨ n₀ = 1 ∨ c₀ = 1) :
    Good p ds [i₀, i₁] [n₀, n₁] := by
  obtain ⟨hS, -, -⟩ := sel_of hwf hb
  unfold Good
  have hdims := hS.dims
  rw [hs, hc] at hdims ⊢
  simp only [dimsOf, List.nil_append, List.cons_append] at hdims ⊢
  have hd1 := hdims ⟨i₀, n₀, c₀, s₀⟩ (by simp)
  have hd0 := hdims ⟨i₁, n₁, c₁, s₁⟩ (by simp)
  by_cases hu : Dim.unit ⟨i₁, n₁, c₁, s₁⟩ = true
  · by_cases hu' : Dim.unit ⟨i₀, n₀, c₀, s₀⟩ = true
    · simp [good, goodFrom, hu, hu']
    · rw [good, goodFrom, if_pos hu, goodFrom, if_neg hu', okRun, if_neg hu', if_neg (by
        simp only [Dim.unit, Dim.exact, Bool.and_eq_true, beq_iff_eq, decide_eq_true_eq] at hu' ⊢
        have := hd1.cnt
        rintro ⟨⟨-, h2⟩, h3⟩
        exact hu' ⟨by simp only at h2 h3 this; omega, by simp only at h2 h3 this; omega⟩)]
      simp only [Bool.and_eq_true, List.all_eq_true, List.mem_range, Bool.or_eq_true,
        Bool.not_eq_true', decide_eq_true_eq, tot, List.map_nil, List.prod_nil, beq_iff_eq]
      refine ⟨fun o ho => ?_, .inl (.inr trivial)⟩
      have := (dim_facts hd1 ho).2.2.2.2.2.1
      simp only [Nat.zero_add, true_and] at *
      rcases Nat.lt_or_ge (o + 1) n₀ with h1 | h1
      · left; right; omega
      · right; omega
  · refine good_cons hd0 hu fun hf _ => okFrom_single hd1 ?_
    rcases h with h | h | h
    · left
      have := hd0.fit
      simp only [Dim.full, Dim.exact, Bool.and_eq_true, beq_iff_eq] at *
      refine ⟨hf.1, ?_⟩
      by_contra hne
      exact h ⟨hf.1, by omega, by omega⟩
    · exact .inr (.inl h)
    · exact .inr (.inr h)

/-- C03 in rank two, the rank of a table or an image: the selection is enumerated in row-major order
unless it takes several rows of exactly the last column of chunks, and the edge of the dataset cuts
that column. -/
theorem C03_rank_two {p : Profile} {ds : Dataset} {ext : Extents}
    {s₀ s₁ c₀ c₁ i₀ i₁ n₀ n₁ : Nat}
    (hwf : WF p ds) (hs : ds.shape = [s₀, s₁]) (hc : ds.chunkShape = [c₀, c₁])
    (hsel : Selects ext ds.shape [i₀, i₁] [n₀, n₁]) (hb : InBounds [i₀, i₁] [n₀, n₁] ds.shape)
    (h : ¬ (i₁ % c₁ = 0 ∧ i₁ + n₁ = s₁ ∧ n₁ < c₁) ∨ n₀ = 1 ∨ c₀ = 1) :
    ∃ items, ds.chunkSlices p ext = ok ⟨items, ok ()⟩ ∧
      Enumerates ds [i₀, i₁] [n₀, n₁] items := by
  obtain ⟨items, h1, h2, -⟩ := chunkSlices_good hwf hsel hb (good_rank_two hwf hs hc hb h)
  exact ⟨items, h1, h2⟩

/-- Both columns of chunks of a 20×15 dataset in chunks of 10×10, rows 3..20. -/
example (p : Profile) : ∃ items,
    cut2015.chunkSlices p (.extent [.sliceEnd 3 20, .sliceEnd 5 15]) = ok ⟨items, ok ()⟩ ∧
    Enumerates cut2015 [3, 5] [17, 10] items :=
  C03_rank_two (cut2015_wf p) rfl rfl ⟨rfl, rfl, rfl⟩ (by unfold InBounds; decide) (by decide)

/-- C01 in rank two, for `CacheReader`, `Direct` and the parallel reader. Missing: several rows of
exactly the last column of chunks when the edge of the dataset cuts it (`cut2015_slices`). -/
theorem C01_rank_two_partial {p : Profile} {io : Io} {file : List Byte} {ds : Dataset}
    {A : List Nat → List Byte} {ext : Extents} {s₀ s₁ c₀ c₁ i₀ i₁ n₀ n₁ : Nat} {rd : CacheReader}
    {dst : List Byte} {sort : List GItem → List GItem}
    (h : Setup p io file ds A ext [i₀, i₁] [n₀, n₁]) (hs : ds.shape = [s₀, s₁])
    (hc : ds.chunkShape = [c₀, c₁])
    (hnot : ¬ (i₁ % c₁ = 0 ∧ i₁ + n₁ = s₁ ∧ n₁ < c₁) ∨ n₀ = 1 ∨ c₀ = 1)
    (hrd : CacheReader.withDataset p ds = ok rd) (hist : List (Extents × List Byte))
    (hsort : ∀ l, SortedByAddr l (sort l)) (hd : n₀ * n₁ * ds.dsize ≤ dst.length) :
    let right := (ok (n₀ * n₁ * ds.dsize),
      selected A [i₀, i₁] [n₀, n₁] ++ dst.drop (n₀ * n₁ * ds.dsize))
    let r := (afterReads p io file ds rd hist).readTo p io file ds ext dst
    (r.1, r.2.1) = right ∧ directReadTo p io ds sort ext dst = right ∧
    ∀ res, DirectReadToPar p io ds sort ext dst res ↔ res = right := by
  have hg := good_rank_two h.wf hs hc h.inb hnot
  have hp : [n₀, n₁].prod = n₀ * n₁ := by simp
  rw [← hp] at hd ⊢
  obtain ⟨e1, e2⟩ := C01_cache_partial h hg hrd hist hd
  exact ⟨Prod.ext e1 e2, C01_direct_partial h hg hsort hd, fun res => C01_par_partial h hg hsort hd res⟩

/-- Rows 1..3, columns 1..4 of `Demo`. -/
example (p : Profile) : directReadTo p Demo.io Demo.ds sortByAddr Demo.ext (List.replicate 13 7) =
    (ok 12, [5, 101, 6, 101, 7, 101, 9, 102, 10, 102, 11, 102, 7]) := by
  obtain ⟨rd, hrd⟩ := C01_cache_open (Demo.setup p)
  exact (C01_rank_two_partial (dst := List.replicate 13 7) (Demo.setup p) (s₀ := 3) (s₁ := 4)
    (c₀ := 2) (c₁ := 2) rfl rfl (.inl (by decide)) hrd [] sortByAddr_ok (by decide)).2.1

/-! ## Whole chunks -/

/-- The selection takes whole chunks in this dimension: it starts at a chunk and ends at the end of
a chunk or of the dataset, and the first chunk is not cut. -/
structure Dim.Whole (d : Dim) : Prop where
  first : d.idx % d.cs = 0
  big : d.cs ≤ d.cnt
  last : (d.idx + d.cnt) % d.cs = 0 ∨ d.idx + d.cnt = d.shp

theorem okFrom_allunit (ex : Bool) : ∀ (R : List Dim), (∀ d ∈ R, DimOk d ∧ d.cs = 1) →
    ∀ (al : Bool), okFrom ex al R = true
  | [], _, _ => rfl
  | d :: R, h, al => by
    obtain ⟨hd, hc⟩ := h d (by simp)
    have hcsz : ∀ o, o < d.cnt → d.csz o = 1 := by
      intro o ho
      obtain ⟨f1, f2, f3, f4, f5, f6, f7⟩ := dim_facts hd ho
      have := hd.fit
      omega
    have hunit : R.all Dim.allunit = true := by
      simp only [List.all_eq_true, Dim.allunit, List.mem_range, beq_iff_eq]
      intro e he o ho
      obtain ⟨hd', hc'⟩ := h e (by simp [he])
      obtain ⟨f1, f2, f3, f4, f5, f6, f7⟩ := dim_facts hd' ho
      have := hd'.fit
      omega
    simp only [okFrom, Bool.or_eq_true, List.all_eq_true, List.mem_range]
    right
    intro o ho
    right
    have ih := okFrom_allunit (ex && d.exact) R (fun e he => h e (by simp [he]))
    simp [hcsz o ho, hunit, ih]

/-- Some chunk of the selection has extent one in this dimension. -/
def Dim.HasUnit (d : Dim) : Prop :=
  d.cs = 1 ∨ (d.shp % d.cs = 1 ∧ d.idx + d.cnt = d.shp)

theorem okFrom_whole : ∀ (R : List Dim), (∀ d ∈ R, DimOk d ∧ Dim.Whole d) →
    R.Pairwise (fun d e => Dim.HasUnit d → e.cs = 1) → okFrom true false R = true
  | [], _, _ => rfl
  | d :: R, h, hp => by
    obtain ⟨hd, hw⟩ := h d (by simp)
    obtain ⟨hp1, hp2⟩ := List.pairwise_cons.1 hp
    have ih := okFrom_whole R (fun e he => h e (by simp [he])) hp2
    have hcs := hd.cs
    have hfit := hd.fit
    simp only [okFrom, Bool.or_eq_true, List.all_eq_true, List.mem_range, Bool.false_or]
    right
    intro o ho
    by_cases hseg : d.segStart o = true
    swap
    · left; left; simpa using hseg
    right
    obtain ⟨f1, f2, f3, f4, f5, f6, f7⟩ := dim_facts hd ho
    have hmod : (d.idx + o) % d.cs = 0 := by
      simp only [Dim.segStart, Bool.or_eq_true, beq_iff_eq] at hseg
      rcases hseg with rfl | h
      · exact hw.first
      · exact h
    have hcoff : d.coff o = d.idx + o := by
      unfold Dim.coff
      have := Nat.div_add_mod (d.idx + o) d.cs
      rw [Nat.mul_comm]; omega
    have hend : d.idx + o + d.cs ≤ d.idx + d.cnt ∨ d.idx + d.cnt = d.shp := by
      rcases hw.last with h | h
      · left
        by_contra hlt
        have h1 : (d.idx + d.cnt) % d.cs = (d.cnt - o) % d.cs := by
          have : d.idx + d.cnt = (d.idx + o) + (d.cnt - o) := by omega
          rw [this, Nat.add_mod, hmod, Nat.zero_add, Nat.mod_mod]
        rw [Nat.mod_eq_of_lt (a := d.cnt - o) (by omega)] at h1
        omega
      · exact .inr h
    by_cases hone : d.csz o = 1
    · have hu : Dim.HasUnit d := by
        by_cases hc1 : d.cs = 1
        · exact .inl hc1
        · right
          have h1 : d.shp = d.idx + o + 1 := by omega
          refine ⟨?_, by omega⟩
          rw [h1, Nat.add_mod, hmod, Nat.zero_add, Nat.mod_mod, Nat.mod_eq_of_lt (by omega)]
      have hall : ∀ e ∈ R, DimOk e ∧ e.cs = 1 := fun e he => ⟨(h e (by simp [he])).1, hp1 e he hu⟩
      have hunit : R.all Dim.allunit = true := by
        simp only [List.all_eq_true, Dim.allunit, List.mem_range, beq_iff_eq]
        intro e he o ho
        obtain ⟨hd', hc'⟩ := hall e he
        obtain ⟨f1, f2, f3, f4, f5, f6, f7⟩ := dim_facts hd' ho
        have := hd'.fit
        omega
      simp [hone, hunit, okFrom_allunit _ R hall]
    · have hlt : o + 1 < d.cnt := by omega
      have hex : d.full = true → d.exact = true := by
        have := hw.big
        simp only [Dim.full, Dim.exact, Bool.and_eq_true, beq_iff_eq]
        intro hf
        exact ⟨hf.1, by omega⟩
      rw [if_neg (by simp [hone])]
      cases hfull : d.full
      · simp [hlt]
      · simp [hlt, hex hfull, ih]

theorem good_whole_chunks {p : Profile} {ds : Dataset} {start count : List Nat}
    (hwf : WF p ds)
    (hb : InBounds start count ds.shape)
    (hwhole : ∀ (k i n c s : Nat), start[k]? = some i → count[k]? = some n → ds.chunkShape[k]? = some c →
      ds.shape[k]? = some s → i % c = 0 ∧ c ≤ n ∧ ((i + n) % c = 0 ∨ i + n = s))
    {n c : Nat} (hn : count.getLast? = some n) (hc : ds.chunkShape.getLast? = some c) (h2 : 2 ≤ n)
    (hunit : c < n ∨ ∀ (j k i n c s : Nat), j < k → k + 1 < ds.shape.length → start[k]? = some i →
      count[k]? = some n → ds.chunkShape[k]? = some c → ds.shape[k]? = some s →
      (c = 1 ∨ (s % c = 1 ∧ i + n = s)) → ds.chunkShape[j]? = some 1) :
    Good p ds start count := by
  obtain ⟨hS, e1, e2⟩ := sel_of hwf hb
  have hdims := hS.dims
  have e3 := hS.cs
  have e4 := hS.shp
  unfold Good
  generalize dimsOf start count ds.chunkShape ds.shape = L at *
  rw [e3] at hc
  rw [e2] at hn
  rw [e3, e4, e1, e2] at hwhole
  rw [e3, e4, e1, e2] at hunit
  have hlen : ∀ (f : Dim → Nat) (i : Nat) (hi : i < L.length),
      ((L.map f).reverse)[L.length - 1 - i]? = some (f L[i]) := by
    intro f i hi
    rw [List.getElem?_reverse (by simp; omega)]
    simp only [List.length_map]
    rw [show L.length - 1 - (L.length - 1 - i) = i by omega]
    simp [hi]
  have hall : ∀ d ∈ L, DimOk d ∧ Dim.Whole d := by
    intro d hd
    refine ⟨hdims d hd, ?_⟩
    obtain ⟨i, hi, rfl⟩ := List.getElem_of_mem hd
    obtain ⟨a, b, c⟩ := hwhole _ _ _ _ _ (hlen Dim.idx i hi) (hlen Dim.cnt i hi) (hlen Dim.cs i hi)
      (hlen Dim.shp i hi)
    exact ⟨a, b, c⟩
  cases L with
  | nil => rfl
  | cons d R =>
    have hdn : d.cnt = n := by simpa using hn
    have hdc : d.cs = c := by simpa using hc
    refine good_cons (hall d (by simp)).1 (fun hu => by have := (unit_iff.1 hu).2; omega) fun hf _ => ?_
    have hw := (hall d (by simp)).2
    have hbig := hw.big
    have hex : d.exact = true := by
      simp only [Dim.full, Dim.exact, Bool.and_eq_true, beq_iff_eq] at *
      exact ⟨hf.1, by omega⟩
    have hnc : d.cnt = d.cs := by
      simp only [Dim.exact, Bool.and_eq_true, beq_iff_eq] at hex
      exact hex.2
    rw [hex]
    apply okFrom_whole R fun e he => hall e (by simp [he])
    have hunit' := hunit.resolve_left (by omega)
    rw [List.pairwise_iff_getElem]
    intro i j hi hj hij hu
    have hi' : i + 1 < (d :: R).length := by simp; omega
    have hj' : j + 1 < (d :: R).length := by simp; omega
    have := hunit' ((d :: R).length - 1 - (j + 1)) ((d :: R).length - 1 - (i + 1)) _ _ _ _
      (by simp; omega) (by simp; omega) (hlen Dim.idx _ hi') (hlen Dim.cnt _ hi')
      (hlen Dim.cs _ hi') (hlen Dim.shp _ hi') (by simpa [Dim.HasUnit] using hu)
    rw [hlen Dim.cs _ hj'] at this
    simpa using this

/-- C03 for a selection of whole chunks, in any rank: in each dimension `k` it starts at a chunk,
ends at the end of a chunk or of the dataset, and is at least one chunk long. It is enumerated in
row-major order if it is at least two elements long in the last dimension and either longer than a
chunk there, or no dimension `k` before the last has a chunk of extent one, except when all
dimensions before `k` have chunk size one. -/
theorem C03_whole_chunks {p : Profile} {ds : Dataset} {ext : Extents} {start count : List Nat}
    (hwf : WF p ds) (hsel : Selects ext ds.shape start count)
    (hb : InBounds start count ds.shape)
    (hwhole : ∀ (k i n c s : Nat), start[k]? = some i → count[k]? = some n → ds.chunkShape[k]? = some c →
      ds.shape[k]? = some s → i % c = 0 ∧ c ≤ n ∧ ((i + n) % c = 0 ∨ i + n = s))
    {n c : Nat} (hn : count.getLast? = some n) (hc : ds.chunkShape.getLast? = some c) (h2 : 2 ≤ n)
    (hunit : c < n ∨ ∀ (j k i n c s : Nat), j < k → k + 1 < ds.shape.length → start[k]? = some i →
      count[k]? = some n → ds.chunkShape[k]? = some c → ds.shape[k]? = some s →
      (c = 1 ∨ (s % c = 1 ∧ i + n = s)) → ds.chunkShape[j]? = some 1) :
    ∃ items, ds.chunkSlices p ext = ok ⟨items, ok ()⟩ ∧ Enumerates ds start count items := by
  obtain ⟨items, h1, h2, -⟩ := chunkSlices_good hwf hsel hb
    (good_whole_chunks hwf hb hwhole hn hc h2 hunit)
  exact ⟨items, h1, h2⟩

/-- The whole of a 20×15 dataset in chunks of 10×10. -/
example (p : Profile) : ∃ items, cut2015.chunkSlices p .all = ok ⟨items, ok ()⟩ ∧
    Enumerates cut2015 [0, 0] [20, 15] items := by
  refine C03_whole_chunks (cut2015_wf p) ⟨rfl, rfl⟩ (by unfold InBounds; decide) ?_ (n := 15)
    (c := 10) rfl rfl (by decide) (.inl (by decide))
  rintro (_ | _ | k) i n c s h1 h2 h3 h4
  · cases h1; cases h2; cases h3; cases h4; decide
  · cases h1; cases h2; cases h3; cases h4; decide
  · simp at h1

/-! ## Reading the whole dataset -/

theorem good_whole {p : Profile} {ds : Dataset} (hwf : WF p ds)
    (hpos : ∀ s ∈ ds.shape, 0 < s)
    (hle : ∀ (k c s : Nat), ds.chunkShape[k]? = some c → ds.shape[k]? = some s → c ≤ s)
    {s c : Nat} (hs : ds.shape.getLast? = some s) (hc : ds.chunkShape.getLast? = some c)
    (h2 : 2 ≤ s)
    (hunit : c < s ∨ ∀ (j k c s : Nat), j < k → k + 1 < ds.shape.length →
      ds.chunkShape[k]? = some c → ds.shape[k]? = some s → (c = 1 ∨ s % c = 1) →
      ds.chunkShape[j]? = some 1) :
    Good p ds (ds.shape.map fun _ => 0) ds.shape := by
  have hb : InBounds (ds.shape.map fun _ => 0) ds.shape ds.shape := by
    refine ⟨by simp, rfl, ?_⟩
    clear hle hs hc hunit hwf
    generalize ds.shape = l at *
    induction l with
    | nil => simp
    | cons x xs ih =>
      simp only [List.mem_cons, forall_eq_or_imp] at hpos
      intro t ht
      simp only [List.map_cons, List.zip_cons_cons, List.mem_cons] at ht
      rcases ht with rfl | ht
      · exact ⟨hpos.1, by simp⟩
      · exact ih hpos.2 t ht
  refine good_whole_chunks hwf hb ?_ hs hc h2 ?_
  · intro k i n c s h1 h2 h3 h4
    have hi : i = 0 := by
      simp only [List.getElem?_map, Option.map_eq_some_iff] at h1
      obtain ⟨-, -, h⟩ := h1; exact h.symm
    have hns : n = s := by rw [h2] at h4; exact Option.some.inj h4
    subst hi hns
    exact ⟨Nat.zero_mod _, hle k c n h3 h2, .inr (Nat.zero_add _)⟩
  · refine hunit.imp_right fun hu j k i n c s hj hk h1 h2 h3 h4 h5 => ?_
    exact hu j k c s hj hk h3 h4 (h5.imp_right And.left)

/-- C01 for reading a whole dataset with `CacheReader`, `Direct` and the parallel reader, if no chunk
is larger than the dataset, the last dimension has at least two elements, and either several chunks
in the last dimension, or no dimension `k` before the last with a chunk of extent one, except when
all dimensions before `k` have chunk size one. Missing: other datasets (`not_C01_whole`). -/
theorem C01_whole_partial {p : Profile} {io : Io} {file : List Byte} {ds : Dataset}
    {A : List Nat → List Byte} {start : List Nat} {rd : CacheReader} {dst : List Byte}
    {sort : List GItem → List GItem} (h : Setup p io file ds A .all start ds.shape)
    (hle : ∀ (k c s : Nat), ds.chunkShape[k]? = some c → ds.shape[k]? = some s → c ≤ s)
    {s c : Nat} (hs : ds.shape.getLast? = some s) (hc : ds.chunkShape.getLast? = some c)
    (h2 : 2 ≤ s)
    (hunit : c < s ∨ ∀ (j k c s : Nat), j < k → k + 1 < ds.shape.length →
      ds.chunkShape[k]? = some c → ds.shape[k]? = some s → (c = 1 ∨ s % c = 1) →
      ds.chunkShape[j]? = some 1)
    (hrd : CacheReader.withDataset p ds = ok rd) (hist : List (Extents × List Byte))
    (hsort : ∀ l, SortedByAddr l (sort l)) (hd : ds.shape.prod * ds.dsize ≤ dst.length) :
    let right := (ok (ds.shape.prod * ds.dsize),
      selected A start ds.shape ++ dst.drop (ds.shape.prod * ds.dsize))
    let r := (afterReads p io file ds rd hist).readTo p io file ds .all dst
    (r.1, r.2.1) = right ∧ directReadTo p io ds sort .all dst = right ∧
    ∀ res, DirectReadToPar p io ds sort .all dst res ↔ res = right := by
  have hst : start = ds.shape.map fun _ => 0 := h.sel.1
  have hpos : ∀ s ∈ ds.shape, 0 < s := by
    intro s hs
    obtain ⟨k, hk, rfl⟩ := List.getElem_of_mem hs
    exact (h.inb.2.2 (start[k]'(by rw [h.inb.1]; exact hk), ds.shape[k], ds.shape[k]) (by
      rw [List.mem_iff_getElem]
      exact ⟨k, by simp [h.inb.1, hk], by simp⟩)).1
  have hg : Good p ds start ds.shape := by
    rw [hst]; exact good_whole h.wf hpos hle hs hc h2 hunit
  obtain ⟨c1, c2⟩ := C01_cache_partial h hg hrd hist hd
  exact ⟨Prod.ext c1 c2, C01_direct_partial h hg hsort hd, fun res => C01_par_partial h hg hsort hd res⟩

/-- All 24 bytes of `Demo` (3×4 elements in chunks of 2×2, shuffled and compressed), and one byte of
the destination that is kept. -/
example (p : Profile) : directReadTo p Demo.io Demo.ds sortByAddr .all (List.replicate 25 7) =
    (ok 24, [0, 100, 1, 100, 2, 100, 3, 100, 4, 101, 5, 101, 6, 101, 7, 101, 8, 102, 9, 102, 10, 102,
      11, 102, 7]) := by
  have hS : Setup p Demo.io Demo.file Demo.ds Demo.A .all [0, 0] [3, 4] :=
    { Demo.setup p with sel := ⟨rfl, rfl⟩, inb := by unfold InBounds; decide }
  obtain ⟨rd, hrd⟩ := C01_cache_open hS
  refine (C01_whole_partial (dst := List.replicate 25 7) hS ?_ (s := 4) (c := 2) rfl rfl (by decide)
    (.inl (by decide)) hrd [] sortByAddr_ok (by decide)).2.1
  rintro (_ | _ | k) c s h1 h2
  · cases h1; cases h2; decide
  · cases h1; cases h2; decide
  · simp [Demo.ds] at h1

/-- A 2×3×2 dataset of bytes in chunks of 2×2×2 (the second is cut): the element at `(a, b, c)` is
`6a + 2b + c`, the padding is 0. -/
def cut232 : Dataset :=
  { dtype := .uint 1, dsize := 1, order := .LE, chunks := [⟨0, 8, [0, 0, 0]⟩, ⟨8, 8, [0, 2, 0]⟩],
    shape := [2, 3, 2], chunkShape := [2, 2, 2], chunkShapeReduced := [2, 2, 2],
    scaledDimSz := [2, 1, 1], dimSz := [6, 2, 1], chunkDimSz := [4, 2, 1], shuffle := false,
    gzip := none }

def file232 : List Byte := [0, 1, 2, 3, 6, 7, 8, 9] ++ [4, 5, 0, 0, 10, 11, 0, 0]
def io232 : Io := ⟨some file232, fun _ => none⟩
def A232 : List Nat → List Byte
  | [a, b, c] => [UInt8.ofNat (6 * a + 2 * b + c)]
  | _ => [0]

theorem in3 {o1 o2 o3 d1 d2 d3 : Nat} {x : List Nat} (h : InBox [o1, o2, o3] [d1, d2, d3] x) :
    ∃ a b c, x = [a, b, c] ∧ o1 ≤ a ∧ a < o1 + d1 ∧ o2 ≤ b ∧ b < o2 + d2 ∧ o3 ≤ c ∧ c < o3 + d3 := by
  match x, h with
  | [a, b, c], h => simp [InBox] at h; exact ⟨a, b, c, rfl, by omega⟩
  | [], h => simp [InBox] at h
  | [_], h => simp [InBox] at h
  | [_, _], h => simp [InBox] at h
  | _ :: _ :: _ :: _ :: _, h => simp [InBox] at h

theorem setup232 (p : Profile) : Setup p io232 file232 cut232 A232 .all [0, 0, 0] [2, 3, 2] where
  wf :=
    { rank := rfl
      built := by cases p <;> rfl
      grid := by decide
      pos := by decide
      fits := ⟨by decide, by decide, by decide, by decide⟩ }
  addr := by unfold AddrDet; decide
  opened := rfl
  sizes := ⟨by decide, by decide, by decide, by decide⟩
  sel := ⟨rfl, rfl⟩
  inb := by unfold InBounds; decide
  stores :=
    { elem := fun x => by unfold A232; split <;> rfl
      chunk := by
        intro c hc
        simp only [cut232, List.mem_cons, List.not_mem_nil, or_false] at hc
        rcases hc with rfl | rfl
        · refine ⟨by decide, [0, 1, 2, 3, 6, 7, 8, 9], rfl, rfl, ?_⟩
          intro x hx _ k hk
          obtain ⟨a, b, c, rfl, h1, h2, h3, h4, h5, h6⟩ := in3 hx
          subst hk
          obtain rfl | rfl : b = 0 ∨ b = 1 := by omega
          all_goals
            obtain rfl | rfl : a = 0 ∨ a = 1 := by omega
            all_goals
              obtain rfl | rfl : c = 0 ∨ c = 1 := by omega
              all_goals decide
        · refine ⟨by decide, [4, 5, 0, 0, 10, 11, 0, 0], rfl, rfl, ?_⟩
          intro x hx hy k hk
          obtain ⟨a, b, c, rfl, h1, h2, h3, h4, h5, h6⟩ := in3 hx
          obtain ⟨a', b', c', he, -, -, -, h7, -, -⟩ :=
            in3 (o1 := 0) (o2 := 0) (o3 := 0) (d1 := 2) (d2 := 3) (d3 := 2) hy
          obtain ⟨rfl, rfl, rfl, -⟩ : a = a' ∧ b = b' ∧ c = c' ∧ True := by simpa using he
          subst hk
          obtain rfl : b = 2 := by omega
          obtain rfl | rfl : a = 0 ∨ a = 1 := by omega
          all_goals
            obtain rfl | rfl : c = 0 ∨ c = 1 := by omega
            all_goals decide }

/-- C01 is false even for reading a whole dataset: all of a 2×3×2 dataset in chunks of 2×2×2 comes
back with wrong elements, some of them padding that is not in the dataset, without an error, in
debug and release builds. -/
theorem not_C01_whole (p : Profile) :
    directReadTo p io232 cut232 sortByAddr .all (List.replicate 12 7) =
      (ok 12, [0, 1, 2, 3, 4, 5, 0, 0, 10, 11, 0, 1]) ∧
    selected A232 [0, 0, 0] [2, 3, 2] = [0, 1, 2, 3, 4, 5, 6, 7, 8, 9, 10, 11] ∧
    ¬ ∀ (io : Io) (file : List Byte) (ds : Dataset) (A : List Nat → List Byte) (start : List Nat)
      (dst : List Byte), Setup p io file ds A .all start ds.shape →
      ds.shape.prod * ds.dsize ≤ dst.length →
      directReadTo p io ds sortByAddr .all dst = (ok (ds.shape.prod * ds.dsize),
        selected A start ds.shape ++ dst.drop (ds.shape.prod * ds.dsize)) := by
  have h1 : directReadTo p io232 cut232 sortByAddr .all (List.replicate 12 7) =
      (ok 12, [0, 1, 2, 3, 4, 5, 0, 0, 10, 11, 0, 1]) := by
    have hS : Sliced p cut232 .all [⟨⟨0, 8, [0, 0, 0]⟩, 0, 4⟩, ⟨⟨8, 8, [0, 2, 0]⟩, 0, 6⟩,
        ⟨⟨0, 8, [0, 0, 0]⟩, 0, 2⟩] 12 :=
      { slices := by cases p <;> decide +kernel
        req := by cases p <;> decide +kernel
        le := by decide
        lt := by decide
        mem := by decide
        fits := by decide
        totW := by decide
        vszW := by decide }
    refine ((directReadTo_iff (setup232 p).addr (fun l => (sortByAddr_ok l).1) (chunkSz := 8)
      (by cases p <;> decide +kernel) (setup232 p).opened hS (by decide)).2 ?_).trans ?_
    · intro it hit
      simp only [List.mem_cons, List.not_mem_nil, or_false] at hit
      rcases hit with rfl | rfl | rfl
      · exact ⟨[0, 1, 2, 3, 6, 7, 8, 9], by cases p <;> decide +kernel, by decide⟩
      · exact ⟨[4, 5, 0, 0, 10, 11, 0, 0], by cases p <;> decide +kernel, by decide⟩
      · exact ⟨[0, 1, 2, 3, 6, 7, 8, 9], by cases p <;> decide +kernel, by decide⟩
    · cases p <;> decide +kernel
  have h2 : selected A232 [0, 0, 0] [2, 3, 2] = [0, 1, 2, 3, 4, 5, 6, 7, 8, 9, 10, 11] := by decide
  refine ⟨h1, h2, fun h => ?_⟩
  have := h io232 file232 cut232 A232 _ (List.replicate 12 7) (setup232 p) (by decide)
  rw [h1, show cut232.shape = [2, 3, 2] from rfl, h2] at this
  exact absurd (congrArg Prod.snd this) (by decide)

end Hidefix.Props
