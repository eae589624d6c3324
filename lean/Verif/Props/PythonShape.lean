import Verif.Props.Python

/-!
# Property C82: the shape of the arrays Python receives
-/

set_option autoImplicit false

namespace Hidefix.Props
open Hidefix Hidefix.Spec Hidefix.Proofs Outcome

theorem numpyItem_int {n : Nat} {i : Int} {l : List Nat} (h : numpyItem n (.int i) = some l) :
    l.length = 1 := by
  simp only [numpyItem] at h
  split at h
  · rw [← Option.some.inj h]; rfl
  · simp at h

theorem asU64_minus {k : Nat} (h : k ≤ 2 ^ 63) (h0 : 0 < k) : 2 ^ 63 ≤ asU64 (-(k : Int)) := by
  have hW : (W : Int) = 2 ^ 64 := rfl
  unfold asU64
  have : (-(k : Int)) % (W : Int) = W - k := by
    rw [← Int.add_emod_right, Int.emod_eq_of_lt] <;> omega
  rw [this]
  omega

/-- The count computed for a slice is the number of indices it selects, or too large for any array. -/
theorem slice_count {n : Nat} (hn : n < 2 ^ 63) (a b : Option Int) :
    let c := asU64 ((sliceIndices n a b).2 - (sliceIndices n a b).1)
    c = (sliceSet n a b).length ∨ 2 ^ 63 ≤ c := by
  obtain ⟨h1, h2, h3, h4⟩ := sliceIndices_le n a b
  by_cases h : sliceSet n a b = []
  · rw [h]
    have hle : (sliceIndices n a b).2 ≤ (sliceIndices n a b).1 := by
      by_contra hlt
      have := (mem_sliceSet (n := n) (a := a) (b := b) (k := (sliceIndices n a b).1.toNat)).2
        ⟨by omega, by omega, by omega⟩
      rw [h] at this; simp at this
    by_cases h0 : (sliceIndices n a b).2 = (sliceIndices n a b).1
    · left; rw [h0, Int.sub_self]; rfl
    · right
      have e : (sliceIndices n a b).2 - (sliceIndices n a b).1 =
          -(((sliceIndices n a b).1 - (sliceIndices n a b).2).toNat : Int) := by omega
      simp only [e]
      exact asU64_minus (by omega) (by omega)
  · obtain ⟨i, j, e1, e2, e3, e4⟩ := sliceSet_eq h
    left
    rw [e4, e1, List.length_range']
    have : ((j : Int) - i) = ((j - i : Nat) : Int) := by omega
    simp only [this]
    exact asU64_of_nat (by unfold W; omega)

/-- The count computed for an item: for a slice the number of indices it selects, for an integer at most
1, or else too large for any array. -/
theorem pyDim_count {p : Profile} {n : Nat} {it : PyItem} {l : List Nat} {d : Nat × Nat × Bool}
    (hn : n < 2 ^ 63) (h : numpyItem n it = some l)
    (hd : (pySlice p it >>= fun x => pyDim n x) = ok d) :
    (d.2.1 = l.length ∨ (∃ i, it = .int i) ∧ d.2.1 ≤ 1) ∨ 2 ^ 63 ≤ d.2.1 := by
  have hn' : (n : Int) < isizeEnd := by unfold isizeEnd; omega
  cases it with
  | other => simp [numpyItem] at h
  | slice a b st =>
    simp only [numpyItem] at h
    split at h
    · obtain rfl := Option.some.inj h
      simp only [pySlice, ok_bind, pyDim, if_pos hn'] at hd
      split at hd
      · simp at hd
      · rw [← Outcome.ok.inj hd]
        rcases slice_count hn a b with h | h
        · exact .inl (.inl h)
        · exact .inr h
    · simp at h
  | int i =>
    have hl := numpyItem_int h
    by_cases hi : i = -1
    · subst hi
      have hs : isizeSucc p (-1) = ok 0 := by cases p <;> decide
      simp only [pySlice] at hd
      rw [if_pos (by decide), hs, ok_bind, ok_bind] at hd
      simp only [pyDim, if_pos hn'] at hd
      rw [if_neg (by decide)] at hd
      rw [← Outcome.ok.inj hd]
      have hpos : 0 < n := by
        simp only [numpyItem] at h
        split at h
        · omega
        · simp at h
      have e : (sliceIndices n (some (-1)) (some 0)).2 - (sliceIndices n (some (-1)) (some 0)).1 =
          -((n - 1 : Nat) : Int) := by
        have a1 : adjust n 0 = 0 := by unfold adjust; split <;> split <;> omega
        have a2 : adjust n (-1) = n - 1 := by unfold adjust; split <;> split <;> omega
        simp only [sliceIndices, a1, a2]
        omega
      simp only [e]
      by_cases h1 : n = 1
      · subst h1
        exact .inl (.inr ⟨⟨_, rfl⟩, by decide⟩)
      · exact .inr (asU64_minus (by omega) (by omega))
    · obtain ⟨s, c, h1, h2, -⟩ := pyDim_right (p := p) hn h
        (by rintro rfl; simp at hl) (by simpa using hi)
      rw [h1] at hd
      rw [← Outcome.ok.inj hd]
      refine .inl (.inl ?_)
      rw [h2]; simp

/-- The dimensions computed from the items are numpy's without those of size 0 and 1. -/
theorem pyDims_counts {p : Profile} {shape : List Nat} {items : List PyItem} {ls : List (List Nat)}
    {r : List (Nat × Nat × Bool)}
    (hn : ∀ n ∈ shape, n < 2 ^ 63) (h : numpySelect shape items = some ls)
    (hr : pyDims p items shape = ok r) (hlt : ∀ d ∈ r, d.2.1 < 2 ^ 63) :
    (r.map (fun d => d.2.1) ++ shape.drop r.length).filter (fun n => 1 < n) =
      (numpyShape items ls).filter (fun n => 1 < n) := by
  induction items generalizing shape ls r with
  | nil =>
    have : ls = shape.map List.range := by cases shape <;> simpa [numpySelect, eq_comm] using h
    subst this
    simp only [pyDims] at hr
    obtain rfl := Outcome.ok.inj hr
    rw [numpyShape.eq_def]
    simp [Function.comp_def]
  | cons it its ih =>
    cases shape with
    | nil => simp [numpySelect] at h
    | cons n ns =>
      simp only [numpySelect] at h
      cases h2 : numpyItem n it with
      | none => rw [h2] at h; simp at h
      | some l =>
        cases h3 : numpySelect ns its with
        | none => rw [h2, h3] at h; simp at h
        | some ls' =>
          rw [h2, h3] at h
          obtain rfl := Option.some.inj h
          simp only [pyDims] at hr
          obtain ⟨s, k1, hr⟩ := bind_eq_ok.1 hr
          obtain ⟨d, k2, hr⟩ := bind_eq_ok.1 hr
          obtain ⟨r', k3, hr⟩ := bind_eq_ok.1 hr
          obtain rfl := Outcome.ok.inj hr
          have ih := ih (fun m hm => hn m (by simp [hm])) h3 k3 (fun q hq => hlt q (by simp [hq]))
          have hc := pyDim_count (p := p) (d := d) (hn n (by simp)) h2 (by rw [k1, ok_bind, k2])
          have hd := hlt d (by simp)
          simp only [List.map_cons, List.cons_append, List.length_cons, List.drop_succ_cons]
          cases it with
          | other => simp [numpyItem] at h2
          | int i =>
            have hl := numpyItem_int h2
            simp only [numpyShape]
            rw [List.filter_cons_of_neg (by
              rcases hc with (hc | ⟨-, hc⟩) | hc
              · simp; omega
              · simp; omega
              · omega), ih]
          | slice a b s =>
            simp only [numpyShape]
            have hc : d.2.1 = l.length := by
              rcases hc with (hc | ⟨⟨i, hc⟩, -⟩) | hc
              · exact hc
              · simp at hc
              · omega
            rw [List.filter_cons, List.filter_cons, ih, hc]

/-- Keeping the dimensions larger than 1, or else one of size 1, changes nothing exactly for the shape
`(1,)` and for shapes with dimensions all of which are larger than 1. -/
theorem pyShape_id (l : List Nat) : pyShape l = l ↔ l = [1] ∨ (l ≠ [] ∧ ∀ n ∈ l, 1 < n) := by
  unfold pyShape
  simp only
  constructor
  · intro h
    split at h
    · exact .inl h.symm
    · rename_i h0
      refine .inr ⟨fun e => h0 (by rw [e]; rfl), fun n hn => ?_⟩
      rw [← h] at hn
      simpa using (List.mem_filter.1 hn).2
  · rintro (rfl | ⟨h1, h2⟩)
    · rfl
    · have : l.filter (fun n => 1 < n) = l := by
        rw [List.filter_eq_self]
        intro n hn; simpa using h2 n hn
      rw [this, if_neg (by simpa using h1)]

theorem prod_ge {l : List Nat} (hpos : ∀ n ∈ l, 0 < n) {c : Nat} (hc : c ∈ l) : c ≤ l.prod := by
  induction l with
  | nil => simp at hc
  | cons x l ih =>
    rw [List.prod_cons]
    have h0 : 0 < l.prod := by
      clear ih hc
      induction l with
      | nil => simp
      | cons y l ih =>
        rw [List.prod_cons]
        exact Nat.mul_pos (hpos y (by simp)) (ih fun n hn => hpos n (by
          rcases List.mem_cons.1 hn with rfl | hn
          · simp
          · simp [hn]))
    rcases List.mem_cons.1 hc with rfl | hc
    · exact Nat.le_mul_of_pos_right _ h0
    · exact Nat.le_trans (ih (fun n hn => hpos n (by simp [hn])) hc)
        (Nat.le_mul_of_pos_left _ (hpos x (by simp)))

/-- The shape of the array that `__getitem__` returns, if it returns one: the dimensions of numpy's array
that are larger than 1, or else one dimension of size 1. -/
theorem py_dims {p : Profile} {hst : Host} {ds : Dataset} {items : List PyItem} {ls : List (List Nat)}
    {rd : ByteReader} {junk : Nat → Byte} {t : Prim} {dims : List Nat} {bytes : List Byte}
    (hn : ∀ n ∈ ds.shape, n < 2 ^ 63) (hsel : numpySelect ds.shape items = some ls)
    (hget : pyGetItem p hst ds rd junk items = ok (t, dims, bytes)) :
    dims = pyShape (numpyShape items ls) := by
  unfold pyGetItem at hget
  obtain ⟨⟨start, count⟩, e1, hget⟩ := bind_eq_ok.1 hget
  obtain ⟨t', -, hget⟩ := bind_eq_ok.1 hget
  obtain ⟨_, e2, hget⟩ := bind_eq_ok.1 hget
  obtain ⟨_, -, hget⟩ := bind_eq_ok.1 hget
  obtain ⟨_, -, hget⟩ := bind_eq_ok.1 hget
  have hd := (Prod.mk.inj (Prod.mk.inj (Outcome.ok.inj hget)).2).1
  rw [← hd]
  unfold pySelect at e1
  obtain ⟨r, r1, e1⟩ := bind_eq_ok.1 e1
  obtain ⟨_, -, e1⟩ := bind_eq_ok.1 e1
  obtain ⟨-, rfl⟩ := Prod.mk.inj (Outcome.ok.inj e1)
  have hlt : ∀ d ∈ r, d.2.1 < 2 ^ 63 := by
    intro d hdm
    by_contra hge
    split at e2
    · rename_i h
      have hp : d.2.1 ≤ (pyShape (r.map (fun d => d.2.1) ++ ds.shape.drop r.length)).prod := by
        unfold pyShape
        have hm : d.2.1 ∈ (r.map (fun d => d.2.1) ++ ds.shape.drop r.length).filter (fun n => 1 < n) := by
          rw [List.mem_filter]
          refine ⟨List.mem_append_left _ (List.mem_map.2 ⟨d, hdm, rfl⟩), ?_⟩
          have : 1 < d.2.1 := by omega
          simpa using this
        simp only
        rw [if_neg (by
          rw [List.isEmpty_iff]; intro h0; rw [h0] at hm; simp at hm)]
        refine prod_ge (fun n hn => ?_) hm
        have := (List.mem_filter.1 hn).2
        have : 1 < n := by simpa using this
        omega
      have hs : 0 < t'.size := by cases t' <;> decide
      have := Nat.le_mul_of_pos_right (pyShape (r.map (fun d => d.2.1) ++ ds.shape.drop r.length)).prod hs
      omega
    · simp at e2
  have := pyDims_counts hn hsel r1 hlt
  unfold pyShape
  rw [this]

/-- C82: the array that `__getitem__` returns has the shape numpy would give it if and only if numpy's
shape is `(1,)`, or has dimensions, all larger than 1. For every profile, dataset, file, schedule and
selection numpy accepts, also one that selects nothing. -/
theorem C82 {p : Profile} {hst : Host} {ds : Dataset} {items : List PyItem} {ls : List (List Nat)}
    {rd : ByteReader} {junk : Nat → Byte} {t : Prim} {dims : List Nat} {bytes : List Byte}
    (hn : ∀ n ∈ ds.shape, n < 2 ^ 63) (hsel : numpySelect ds.shape items = some ls)
    (hget : pyGetItem p hst ds rd junk items = ok (t, dims, bytes)) :
    dims = numpyShape items ls ↔
      numpyShape items ls = [1] ∨ (numpyShape items ls ≠ [] ∧ ∀ n ∈ numpyShape items ls, 1 < n) := by
  rw [py_dims hn hsel hget]
  exact pyShape_id _

/-- C82: the dimensions that are lost are those of size 0 and 1. -/
theorem C82_kept {p : Profile} {hst : Host} {ds : Dataset} {items : List PyItem} {ls : List (List Nat)}
    {rd : ByteReader} {junk : Nat → Byte} {t : Prim} {dims : List Nat} {bytes : List Byte}
    (hn : ∀ n ∈ ds.shape, n < 2 ^ 63) (hsel : numpySelect ds.shape items = some ls)
    (hget : pyGetItem p hst ds rd junk items = ok (t, dims, bytes)) :
    ((∀ n ∈ numpyShape items ls, n ≤ 1) → dims = [1]) ∧
    (¬ (∀ n ∈ numpyShape items ls, n ≤ 1) → dims = (numpyShape items ls).filter fun n => 1 < n) := by
  rw [py_dims hn hsel hget]
  unfold pyShape
  simp only
  have : ((numpyShape items ls).filter (fun n => decide (1 < n))).isEmpty = true ↔
      ∀ n ∈ numpyShape items ls, n ≤ 1 := by
    rw [List.isEmpty_iff, List.filter_eq_nil_iff]
    simp
  constructor
  · intro h; rw [if_pos (this.2 h)]
  · intro h; rw [if_neg (fun h' => h (this.1 h'))]

/-- C82, the values and the shape together: for the selections of `C39_partial` in which
every slice and every dimension without an item selects more than one index, and not every item is an
integer, `__getitem__` returns numpy's array: its shape and its values. -/
theorem C82_values {p : Profile} {hst : Host} {t : Prim} {io : Io} {file : List Byte} {ds : Dataset}
    {A : List Nat → List Byte} {items : List PyItem} {ls : List (List Nat)}
    {sort : List GItem → List GItem} {rd : ByteReader}
    (hwf : WF p ds) (had : AddrDet ds) (hio : io.file = some file) (hst' : Stores io.inflate file ds A)
    (hsz : Sizes file ds) (ht : ds.dtype = numpyType t) (hsw : Swaps hst t ∨ ds.order ≠ .LE)
    (hsort : ∀ l, SortedByAddr l (sort l))
    (hrd : ∀ ext dst, DirectReadToPar p io ds sort ext dst (rd ext dst))
    (hn : ∀ n ∈ ds.shape, n < 2 ^ 63) (hsel : numpySelect ds.shape items = some ls)
    (hne : ∀ l ∈ ls, l ≠ []) (h1 : PyItem.int (-1) ∉ items)
    (hg : Good p ds (firsts ls) (ls.map List.length))
    (hmem : (ls.map List.length).prod * ds.dsize < 2 ^ 63)
    (hd : numpyShape items ls ≠ []) (hd1 : ∀ n ∈ numpyShape items ls, 1 < n) :
    ∃ vs, (∀ junk, pyGetItem p hst ds rd junk items = ok (t, numpyShape items ls, vs.flatten)) ∧
      SameValues hst ds.order ((combine ls).map A) vs := by
  obtain ⟨vs, h, h'⟩ := C39_partial hwf had hio hst' hsz ht hsw hsort hrd hn hsel hne h1 hg hmem
  refine ⟨vs, fun junk => ?_, h'⟩
  rw [h junk]
  have := (C82 hn hsel (h junk)).2 (.inr ⟨hd, hd1⟩)
  rw [this]

/-- C82, the other direction is met: one row of the demo dataset (shape 3×4), selected with a slice, comes back with one dimension
instead of two; one element, selected with integers, comes back with one dimension instead of none. -/
theorem C82_lost :
    (numpySelect Demo.ds.shape [.slice (some 0) (some 1) none] = some [[0], [0, 1, 2, 3]] ∧
      numpyShape [.slice (some 0) (some 1) none] [[0], [0, 1, 2, 3]] = [1, 4] ∧
      ∀ (p : Profile) (hst : Host) (rd : ByteReader) (junk : Nat → Byte) (t : Prim) (dims : List Nat)
        (bytes : List Byte),
        pyGetItem p hst Demo.ds rd junk [.slice (some 0) (some 1) none] = ok (t, dims, bytes) →
        dims = [4]) ∧
    (numpySelect Demo.ds.shape [.int 1, .int 2] = some [[1], [2]] ∧
      numpyShape [.int 1, .int 2] [[1], [2]] = [] ∧
      ∀ (p : Profile) (hst : Host) (rd : ByteReader) (junk : Nat → Byte) (t : Prim) (dims : List Nat)
        (bytes : List Byte), pyGetItem p hst Demo.ds rd junk [.int 1, .int 2] = ok (t, dims, bytes) →
        dims = [1]) := by
  have a : numpySelect Demo.ds.shape [.slice (some 0) (some 1) none] = some [[0], [0, 1, 2, 3]] := by decide
  have b : numpySelect Demo.ds.shape [.int 1, .int 2] = some [[1], [2]] := by decide
  refine ⟨⟨a, rfl, ?_⟩, ⟨b, rfl, ?_⟩⟩
  · intro p hst rd junk t dims bytes h
    exact py_dims (by decide) a h
  · intro p hst rd junk t dims bytes h
    exact py_dims (by decide) b h

/-- The reads of `C82_lost` return (in every build, for every schedule): the claim above is not vacuous. -/
example (p : Profile) (rd : ByteReader)
    (hrd : ∀ ext dst, DirectReadToPar p Demo.io Demo.ds sortByAddr ext dst (rd ext dst)) :
    ∃ vs, ∀ junk, pyGetItem p .little Demo.ds rd junk [.slice (some 0) (some 1) none] =
      ok (.u16, [4], vs) := by
  obtain ⟨vs, h, -⟩ := C39_partial (hst := .little) (t := .u16)
    (items := [.slice (some 0) (some 1) none])
    (ls := [[0], [0, 1, 2, 3]]) (Demo.wf p) Demo.addr rfl Demo.stores Demo.sizes rfl
    (.inl (.inl rfl)) sortByAddr_ok
    hrd (by decide) (by decide) (by decide) (by decide) (by unfold Good; cases p <;> decide) (by decide)
  exact ⟨vs.flatten, h⟩

/-- A case that meets the hypotheses of `C82_values` on the selection: `ds[1:, -3]`, of shape `(2,)`. -/
example : numpySelect Demo.ds.shape [.slice (some 1) none none, .int (-3)] = some [[1, 2], [1]] ∧
    numpyShape [.slice (some 1) none none, .int (-3)] [[1, 2], [1]] = [2] := by decide

end Hidefix.Props
