import Verif.Proofs.Final

/-!
# More facts about slices: totals, tiles, bounds, good shapes
-/

set_option autoImplicit false

namespace Hidefix.Proofs
open Hidefix Hidefix.Spec Outcome

/-- Debug builds: an iteration that ran to its end produced exactly the values of the selection. -/
theorem trace_debug_total {ds : Dataset} (fuel : Nat) (s : Slicer) (hs : s.offset ≤ s.stop)
    (he : (Slicer.trace .debug ds fuel s).ending = ok ()) :
    s.offset + total (Slicer.trace .debug ds fuel s).items = s.stop := by
  induction fuel generalizing s with
  | zero => simp [Slicer.trace] at he
  | succ fuel ih =>
    simp only [Slicer.trace] at he ⊢
    cases hn : s.next .debug ds with
    | ok x =>
      cases x with
      | none =>
        have : s.stop ≤ s.offset := by
          unfold Slicer.next at hn
          split at hn
          · assumption
          · exfalso
            split at hn
            · obtain ⟨_, -, hn⟩ := bind_eq_ok.1 hn
              obtain ⟨_, -, hn⟩ := bind_eq_ok.1 hn
              obtain ⟨_, -, hn⟩ := bind_eq_ok.1 hn
              simp at hn
            · obtain ⟨_, -, hn⟩ := bind_eq_ok.1 hn
              obtain ⟨_, -, hn⟩ := bind_eq_ok.1 hn
              obtain ⟨_, -, hn⟩ := bind_eq_ok.1 hn
              obtain ⟨_, -, hn⟩ := bind_eq_ok.1 hn
              obtain ⟨_, -, hn⟩ := bind_eq_ok.1 hn
              obtain ⟨_, -, hn⟩ := bind_eq_ok.1 hn
              obtain ⟨_, -, hn⟩ := bind_eq_ok.1 hn
              obtain ⟨_, -, hn⟩ := bind_eq_ok.1 hn
              obtain ⟨_, -, hn⟩ := bind_eq_ok.1 hn
              obtain ⟨_, -, hn⟩ := bind_eq_ok.1 hn
              simp at hn
        simp only [total, List.map_nil, List.sum_nil]
        omega
      | some its =>
        obtain ⟨it, s'⟩ := its
        obtain ⟨h1, h2, h3, h4, -⟩ := next_debug hn
        simp only [hn] at he
        have := ih s' (by omega) he
        simp only [total, List.map_cons, List.sum_cons] at this ⊢
        omega
    | err e => simp [hn] at he
    | «panic» e => simp [hn] at he
    | ub => simp [hn] at he
    | diverge => simp [hn] at he

theorem length_le_total {items : List Item} (h : ∀ it ∈ items, it.start < it.stop) :
    items.length ≤ total items := by
  induction items with
  | nil => simp
  | cons it its ih =>
    have h1 := h it (by simp)
    have h2 := ih fun x hx => h x (by simp [hx])
    rw [total_cons, List.length_cons]; omega

/-- The slicer a debug build constructs. -/
theorem chunkSlicer_stop {ds : Dataset} {ext : Extents} {s : Slicer} {start count : List Nat}
    (hs : ds.chunkSlicer .debug ext = ok s) (hsel : Selects ext ds.shape start count) :
    s.offset = 0 ∧ s.stop ≤ count.prod ∧ s.stop < W := by
  obtain ⟨i, c, oob, h1, -, hs⟩ := chunkSlicer_inv hs
  rw [(selects_iff ext ds.shape start count).2 hsel] at h1
  obtain ⟨rfl, rfl⟩ := Prod.mk.inj (Outcome.ok.inj h1)
  split at hs
  · obtain rfl := Outcome.ok.inj hs
    exact ⟨rfl, by simp [Slicer.empty], by simp [Slicer.empty, W]⟩
  · unfold Slicer.new at hs
    by_cases hs0 : ds.isScalar = true
    · simp only [hs0, if_true] at hs
      obtain ⟨_, ha, hs⟩ := bind_eq_ok.1 hs
      obtain ⟨_, ha1, hs⟩ := bind_eq_ok.1 hs
      obtain rfl := Outcome.ok.inj ha1
      obtain ⟨_, -, hs⟩ := bind_eq_ok.1 hs
      obtain ⟨_, hd, hs⟩ := bind_eq_ok.1 hs
      obtain ⟨_, -, hs⟩ := bind_eq_ok.1 hs
      obtain ⟨_, -, hs⟩ := bind_eq_ok.1 hs
      obtain ⟨_, -, hs⟩ := bind_eq_ok.1 hs
      obtain rfl := Outcome.ok.inj hs
      have hd := debugAssert_debug hd
      have he : ds.shape = [] := by simpa [Dataset.isScalar] using hs0
      simp only [he, List.length_nil, beq_iff_eq, List.length_eq_zero_iff] at hd
      exact ⟨rfl, by simp [hd], by simp [W]⟩
    · rw [Bool.not_eq_true] at hs0
      simp only [hs0, Bool.false_eq_true, if_false] at hs
      obtain ⟨n', hn2, hs⟩ := bind_eq_ok.1 hs
      obtain ⟨_, -, hs⟩ := bind_eq_ok.1 hs
      obtain ⟨_, -, hs⟩ := bind_eq_ok.1 hs
      obtain ⟨_, -, hs⟩ := bind_eq_ok.1 hs
      obtain ⟨_, -, hs⟩ := bind_eq_ok.1 hs
      obtain ⟨_, -, hs⟩ := bind_eq_ok.1 hs
      obtain rfl := Outcome.ok.inj hs
      exact ⟨rfl, Nat.le_of_eq (product64_debug hn2), product64_lt hn2⟩

/-- The tiles cover exactly the positions of the values. -/
theorem tile_cover (items : List Item) (off k : Nat) :
    (∃ g ∈ tile off items, g.current ≤ k ∧ k < g.current + (g.stop - g.start)) ↔
      off ≤ k ∧ k < off + total items := by
  induction items generalizing off with
  | nil => simp [tile, total]
  | cons it its ih =>
    simp only [tile, List.mem_cons, exists_eq_or_imp, ih, total_cons]
    omega

/-- `exceeds` when no addition overflows. -/
theorem exceeds_of_no_overflow (p : Profile) (is ns ss : List Nat)
    (h : ∀ t ∈ is.zip (ns.zip ss), t.1 + t.2.1 < W) :
    ∃ b, exceeds p is ns ss = ok b ∧
      (b = true ↔ ∃ t ∈ is.zip (ns.zip ss), t.2.2 < t.1 + t.2.1) := by
  induction is generalizing ns ss with
  | nil => exact ⟨false, rfl, by simp⟩
  | cons i is ih =>
    cases ns with
    | nil => exact ⟨false, rfl, by simp⟩
    | cons n ns =>
      cases ss with
      | nil => exact ⟨false, rfl, by simp⟩
      | cons s ss =>
        simp only [List.zip_cons_cons, List.mem_cons, forall_eq_or_imp] at h
        simp only [exceeds, add64_of_lt h.1, ok_bind]
        by_cases hlt : s < i + n
        · exact ⟨true, by rw [if_pos hlt], by simp [hlt]⟩
        · obtain ⟨b, h1, h2⟩ := ih ns ss h.2
          refine ⟨b, by rw [if_neg hlt, h1], ?_⟩
          rw [h2]
          simp [hlt]

theorem trace_empty (p : Profile) (ds : Dataset) :
    Slicer.run p ds (Slicer.empty ds) = ⟨[], ok ()⟩ := by
  unfold Slicer.run
  obtain ⟨f, hf⟩ : ∃ f, Slicer.fuel ds = f + 1 := ⟨W ^ (ds.shape.length + 1), rfl⟩
  rw [hf]
  simp [Slicer.trace, Slicer.next, Slicer.empty]

theorem chunkSlices_oob {p : Profile} {ds : Dataset} {ext : Extents} {start count : List Nat}
    (hsel : Selects ext ds.shape start count)
    (hno : ∀ t ∈ start.zip (count.zip ds.shape), t.1 + t.2.1 < W)
    (hb : (∃ t ∈ start.zip (count.zip ds.shape), t.2.2 < t.1 + t.2.1) ∨ 0 ∈ count) :
    ds.chunkSlices p ext = ok ⟨[], ok ()⟩ := by
  unfold Dataset.chunkSlices Dataset.chunkSlicer
  obtain ⟨b, h1, h2⟩ := exceeds_of_no_overflow p start count ds.shape hno
  rw [(selects_iff ext ds.shape start count).2 hsel]
  simp only [ok_bind, h1]
  have : (b || count.any fun c => c == 0) = true := by
    rcases hb with hb | hb
    · rw [h2.2 hb, Bool.true_or]
    · rw [Bool.or_eq_true]; right
      exact List.any_eq_true.2 ⟨0, hb, rfl⟩
  rw [if_pos this, ok_bind, trace_empty]

/-! ## Shapes of good selections -/

theorem dimsOf_append (is ns cs ss : List Nat) (i n c s : Nat) (h1 : is.length = ss.length)
    (h2 : ns.length = ss.length) (h3 : cs.length = ss.length) :
    dimsOf (is ++ [i]) (ns ++ [n]) (cs ++ [c]) (ss ++ [s]) =
      ⟨i, n, c, s⟩ :: dimsOf is ns cs ss := by
  induction ss generalizing is ns cs with
  | nil =>
    simp only [List.length_nil, List.length_eq_zero_iff] at h1 h2 h3
    subst h1 h2 h3; rfl
  | cons s' ss ih =>
    cases is with
    | nil => simp at h1
    | cons i' is =>
      cases ns with
      | nil => simp at h2
      | cons n' ns =>
        cases cs with
        | nil => simp at h3
        | cons c' cs =>
          simp only [List.cons_append, dimsOf]
          rw [ih is ns cs (by simpa using h1) (by simpa using h2) (by simpa using h3)]
          rfl

theorem snoc_of_length {l : List Nat} {n : Nat} (h : l.length = n + 1) :
    ∃ a x, l = a ++ [x] ∧ a.length = n := by
  have hne : l ≠ [] := by intro he; simp [he] at h
  refine ⟨l.dropLast, l.getLast hne, (List.dropLast_append_getLast hne).symm, ?_⟩
  simp [h]

/-- All dimensions are exactly one uncut chunk. -/
theorem okFrom_exact (L : List Dim) (hL : ∀ d ∈ L, DimOk d ∧ d.exact = true) :
    okFrom true false L = true := by
  induction L with
  | nil => rfl
  | cons d R ih =>
    have hR := ih fun x hx => hL x (by simp [hx])
    obtain ⟨hd, hex⟩ := hL d (by simp)
    have hex' := hex
    simp only [Dim.exact, Bool.and_eq_true, beq_iff_eq] at hex
    obtain ⟨hm, hc⟩ := hex
    have hcs := hd.cs
    unfold okFrom
    rw [Bool.or_eq_true]; right
    rw [List.all_eq_true]
    intro o ho
    rw [List.mem_range] at ho
    simp only [Bool.false_or, hex', Bool.and_true, Bool.true_or, hR, Bool.or_true, Bool.not_false]
    by_cases hseg : d.segStart o = true
    · have ho0 : o = 0 := by
        simp only [Dim.segStart, Bool.or_eq_true, beq_iff_eq] at hseg
        rcases hseg with h | h
        · exact h
        · rw [Nat.add_mod, hm, Nat.zero_add, Nat.mod_mod, Nat.mod_eq_of_lt (by omega)] at h
          exact h
      subst ho0
      have hcoff : d.coff 0 = d.idx := by
        unfold Dim.coff
        rw [Nat.add_zero, Nat.div_mul_cancel (Nat.dvd_of_mod_eq_zero hm)]
      have hcsz : d.csz 0 = d.cs := by
        unfold Dim.csz
        rw [hcoff]
        have := hd.fit
        omega
      rw [hcsz]
      have hfull : d.full = true := by
        simp only [Dim.full, Bool.and_eq_true, beq_iff_eq]
        have := hd.fit
        exact ⟨hm, by omega⟩
      by_cases h1 : d.cs = 1
      · have : d.cnt = 1 := by omega
        simp [h1, this, hfull, hR]
      · have : 1 < d.cnt := by omega
        simp [h1, this]
    · simp [hseg]

/-- A first dimension that is not a unit one. -/
theorem good_cons {p : Profile} {d : Dim} {R : List Dim} (hd : DimOk d) (hu : ¬ d.unit = true)
    (h : d.full = true → tot R ≠ 1 → okFrom d.exact false R = true) : good p (d :: R) = true := by
  have hcnt := hd.cnt
  rw [good, goodFrom, if_neg hu, okRun, if_neg hu, if_neg (by simp; omega)]
  simp only [Bool.and_eq_true, List.all_eq_true, List.mem_range, Bool.or_eq_true,
    Bool.not_eq_true', decide_eq_true_eq, beq_iff_eq, Nat.add_zero]
  refine ⟨fun o ho => ?_, ?_⟩
  · have := (dim_facts hd ho).2.2.2.2.2.1
    left; right; exact ⟨ho, .inr (by omega)⟩
  · by_cases hf : d.full = true
    · by_cases ht : tot R = 1
      · exact .inl (.inr ht)
      · exact .inr (h hf ht)
    · exact .inl (.inl (by simpa using hf))

/-- All dimensions are exactly one uncut chunk. -/
theorem okRun_exact {p : Profile} (L : List Dim) (hL : ∀ d ∈ L, DimOk d ∧ d.exact = true) (c : Nat) :
    okRun p c L = true := by
  induction L generalizing c with
  | nil => rfl
  | cons d R ih =>
    have hR := fun x hx => hL x (List.mem_cons_of_mem _ hx)
    obtain ⟨hd, hex⟩ := hL d (by simp)
    rw [okRun]
    split
    · exact ih hR c
    · split
      · exact ih hR _
      · rename_i h1 h2
        simp only [hex, Bool.true_and, decide_eq_true_eq] at h2
        have hf := exact_full hd hex
        simp only [Bool.and_eq_true, List.all_eq_true, List.mem_range, Bool.or_eq_true,
          Bool.not_eq_true', decide_eq_true_eq]
        refine ⟨fun o ho => ?_, .inr (by rw [hex]; exact okFrom_exact R hR)⟩
        by_cases hs : d.segStart o = true
        · have := seg_full hd hf ho hs
          subst this
          have := ((full_iff hd ho).1 hf).2
          left; right; exact ⟨by omega, .inr (by omega)⟩
        · left; left; simpa using hs

theorem goodFrom_exact {p : Profile} (L : List Dim) (hL : ∀ d ∈ L, DimOk d ∧ d.exact = true) (k : Nat) :
    goodFrom p k L = true := by
  induction L generalizing k with
  | nil => rfl
  | cons d R ih =>
    rw [goodFrom]
    split
    · exact ih (fun x hx => hL x (List.mem_cons_of_mem _ hx)) _
    · exact okRun_exact _ hL k

/-- Debug builds: a complete iteration over an in-bounds selection yields one position per selected
element. -/
theorem total_debug {ds : Dataset} {ext : Extents} {start count : List Nat} {items : List Item}
    (hsel : Selects ext ds.shape start count) (hb : InBounds start count ds.shape)
    (ht : ds.chunkSlices .debug ext = ok ⟨items, ok ()⟩) : total items = count.prod := by
  unfold Dataset.chunkSlices at ht
  obtain ⟨s, h1, h2⟩ := bind_eq_ok.1 ht
  have h2 := Outcome.ok.inj h2
  unfold Slicer.run at h2
  have h3 := trace_debug_total (ds := ds) (Slicer.fuel ds) s
    (by have := chunkSlicer_stop h1 hsel; omega) (by rw [h2])
  rw [h2] at h3
  simp only at h3
  have h0 := (chunkSlicer_stop h1 hsel).1
  -- the selection is in bounds, so the slicer is not the empty one
  obtain ⟨i, c, oob, e1, e2, e3⟩ := chunkSlicer_inv h1
  rw [(selects_iff ext ds.shape start count).2 hsel] at e1
  obtain ⟨rfl, rfl⟩ := Prod.mk.inj (Outcome.ok.inj e1)
  have hnz : (count.any fun c => c == 0) = false := by
    rw [List.any_eq_false]
    intro x hx
    have := mem_count_of_bounds hb x hx
    simp; omega
  have hoob : oob = false := by
    cases oob with
    | false => rfl
    | true =>
      exfalso
      have hbnd := hb.2.2
      clear e3 h1 h2 h3 hnz ht hsel hb e1
      generalize ds.shape = ss at *
      induction start generalizing count ss with
      | nil => simp [exceeds] at e2
      | cons i is ih =>
        cases count with
        | nil => simp [exceeds] at e2
        | cons n ns =>
          cases ss with
          | nil => simp [exceeds] at e2
          | cons s ss =>
            simp only [List.zip_cons_cons, List.mem_cons, forall_eq_or_imp] at hbnd
            simp only [exceeds] at e2
            obtain ⟨a, ha, e2⟩ := bind_eq_ok.1 e2
            obtain ⟨rfl, -⟩ := add64_debug ha
            rw [if_neg (by omega)] at e2
            exact ih _ e2 hbnd.2
  rw [hoob, hnz] at e3
  simp only [Bool.or_self, Bool.false_eq_true, if_false] at e3
  have hstop : s.stop = count.prod := by
    unfold Slicer.new at e3
    by_cases hs0 : ds.isScalar = true
    · simp only [hs0, if_true] at e3
      obtain ⟨_, ha, e3⟩ := bind_eq_ok.1 e3
      obtain ⟨_, ha1, e3⟩ := bind_eq_ok.1 e3
      obtain rfl := Outcome.ok.inj ha1
      obtain ⟨_, -, e3⟩ := bind_eq_ok.1 e3
      obtain ⟨_, hd, e3⟩ := bind_eq_ok.1 e3
      obtain ⟨_, -, e3⟩ := bind_eq_ok.1 e3
      obtain ⟨_, -, e3⟩ := bind_eq_ok.1 e3
      obtain ⟨_, -, e3⟩ := bind_eq_ok.1 e3
      obtain rfl := Outcome.ok.inj e3
      have hd := debugAssert_debug hd
      have he : ds.shape = [] := by simpa [Dataset.isScalar] using hs0
      simp only [he, List.length_nil, beq_iff_eq, List.length_eq_zero_iff] at hd
      simp [hd]
    · rw [Bool.not_eq_true] at hs0
      simp only [hs0, Bool.false_eq_true, if_false] at e3
      obtain ⟨n', hn2, e3⟩ := bind_eq_ok.1 e3
      obtain ⟨_, -, e3⟩ := bind_eq_ok.1 e3
      obtain ⟨_, -, e3⟩ := bind_eq_ok.1 e3
      obtain ⟨_, -, e3⟩ := bind_eq_ok.1 e3
      obtain ⟨_, -, e3⟩ := bind_eq_ok.1 e3
      obtain ⟨_, -, e3⟩ := bind_eq_ok.1 e3
      obtain rfl := Outcome.ok.inj e3
      exact product64_debug hn2
  omega


end Hidefix.Proofs
