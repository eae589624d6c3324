import Verif.Proofs.ExactTop
import Verif.Proofs.Slices

/-!
# The converse for the whole iteration
-/

namespace Hidefix.Proofs
open Hidefix Hidefix.Spec Outcome

theorem digits_lt {L : List Dim} (hL : ∀ d ∈ L, DimOk d) (n : Nat) :
    List.Forall₂ (fun o (d : Dim) => o < d.cnt) (digits L n) L := by
  induction L generalizing n with
  | nil => exact .nil
  | cons x R ih =>
    exact .cons (Nat.mod_lt _ (hL x (by simp)).cnt) (ih (fun y hy => hL y (by simp [hy])) _)

/-- The loop leaves every coordinate below its count. -/
theorem carryRest_lt {p : Profile} {L : List Dim} (hL : ∀ d ∈ L, DimOk d) {S m c : Nat}
    {offs : List Nat} (h : carryRest p c (lanesAt S L m) = ok offs) :
    List.Forall₂ (fun o (d : Dim) => o < d.cnt) offs L := by
  induction L generalizing S m c offs with
  | nil =>
    have := Outcome.ok.inj h
    subst this; exact .nil
  | cons d R ih =>
    have hcnt := (hL d (by simp)).cnt
    have hR : ∀ x ∈ R, DimOk x := fun x hx => hL x (by simp [hx])
    simp only [lanesAt, carryRest] at h
    obtain ⟨o, -, h⟩ := bind_eq_ok.1 h
    split at h
    · have := Outcome.ok.inj h
      subst this
      refine .cons (Nat.mod_lt _ hcnt) ?_
      rw [lanesAt_off]
      exact digits_lt hR _
    · obtain ⟨r, h1, h⟩ := bind_eq_ok.1 h
      have := Outcome.ok.inj h
      subst this
      exact .cons (Nat.mod_lt _ hcnt) (ih hR h1)

theorem walk_lt {p : Profile} {L : List Dim} (hL : ∀ d ∈ L, DimOk d) {stop c adv soff S m : Nat}
    {w : WalkOut} (h : walk p stop c adv soff (lanesAt S L m) = ok w) :
    List.Forall₂ (fun o (d : Dim) => o < d.cnt) w.offs L := by
  induction L generalizing c adv soff S m w with
  | nil =>
    have := Outcome.ok.inj h
    subst this; exact .nil
  | cons d R ih =>
    have hcnt := (hL d (by simp)).cnt
    have hR : ∀ x ∈ R, DimOk x := fun x hx => hL x (by simp [hx])
    simp only [lanesAt, walk] at h
    obtain ⟨csz, -, h⟩ := bind_eq_ok.1 h
    obtain ⟨o, -, h⟩ := bind_eq_ok.1 h
    split at h
    · obtain ⟨r, h1, h⟩ := bind_eq_ok.1 h
      have := Outcome.ok.inj h
      subst this
      exact .cons (Nat.mod_lt _ hcnt) (ih hR h1)
    · obtain ⟨_, -, h⟩ := bind_eq_ok.1 h
      obtain ⟨_, -, h⟩ := bind_eq_ok.1 h
      obtain ⟨_, -, h⟩ := bind_eq_ok.1 h
      obtain ⟨_, -, h⟩ := bind_eq_ok.1 h
      obtain ⟨_, -, h⟩ := bind_eq_ok.1 h
      obtain ⟨_, -, h⟩ := bind_eq_ok.1 h
      obtain ⟨_, -, h⟩ := bind_eq_ok.1 h
      obtain ⟨_, -, h⟩ := bind_eq_ok.1 h
      split at h
      · obtain ⟨r, h1, h⟩ := bind_eq_ok.1 h
        have := Outcome.ok.inj h
        subst this
        exact .cons (Nat.mod_lt _ hcnt) (ih hR h1)
      · obtain ⟨_, -, h⟩ := bind_eq_ok.1 h
        obtain ⟨r, h1, h⟩ := bind_eq_ok.1 h
        have := Outcome.ok.inj h
        subst this
        exact .cons (Nat.mod_lt _ hcnt) (carryRest_lt hR h1)

theorem digits_surj {offs : List Nat} {L : List Dim}
    (h : List.Forall₂ (fun o (d : Dim) => o < d.cnt) offs L) :
    ∃ q, q < tot L ∧ offs = digits L q := by
  induction h with
  | nil => exact ⟨0, by simp [tot], rfl⟩
  | @cons o d offs L h1 h2 ih =>
    obtain ⟨q, hq, rfl⟩ := ih
    refine ⟨o + d.cnt * q, ?_, ?_⟩
    · rw [tot_cons]
      have : d.cnt * (q + 1) ≤ d.cnt * tot L := Nat.mul_le_mul_left _ hq
      rw [Nat.mul_add] at this
      omega
    · simp only [digits]
      rw [Nat.add_mul_mod_self_left, Nat.mod_eq_of_lt h1, Nat.add_mul_div_left _ _ (by omega),
        Nat.div_eq_of_lt h1, Nat.zero_add]

/-- Chunk and position in it determine the element. -/
theorem place_inj {L : List Dim} (hL : ∀ d ∈ L, DimOk d) {a b : Nat} (ha : a < tot L)
    (hb : b < tot L) (hc : cell L a = cell L b) (hp : pos L a = pos L b) : a = b := by
  induction L generalizing a b with
  | nil => simp only [tot, List.map_nil, List.prod_nil] at ha hb; omega
  | cons d R ih =>
    have hd := hL d (by simp)
    have hcs := hd.cs
    simp only [cell, List.cons.injEq] at hc
    simp only [pos] at hp
    have h1 := Nat.mod_lt (d.idx + a % d.cnt) hcs
    have h2 := Nat.mod_lt (d.idx + b % d.cnt) hcs
    have e1 : (d.idx + a % d.cnt) % d.cs = (d.idx + b % d.cnt) % d.cs := by
      have := congrArg (· % d.cs) hp
      simpa [Nat.add_mul_mod_self_left] using this
    have e2 : pos R (a / d.cnt) = pos R (b / d.cnt) := by
      have : d.cs * pos R (a / d.cnt) = d.cs * pos R (b / d.cnt) := by omega
      exact Nat.eq_of_mul_eq_mul_left hcs this
    rw [tot_cons] at ha hb
    have e3 := ih (fun x hx => hL x (by simp [hx])) (row_lt_tot hd ha) (row_lt_tot hd hb) hc.2 e2
    have q1 := Nat.div_add_mod (d.idx + a % d.cnt) d.cs
    have q2 := Nat.div_add_mod (d.idx + b % d.cnt) d.cs
    rw [hc.1, e1] at q1
    have q3 := Nat.div_add_mod a d.cnt
    have q4 := Nat.div_add_mod b d.cnt
    rw [e3] at q3
    omega

theorem inBox_append_inv : ∀ {os ds xs : List Nat} {o d x : Nat}, os.length = xs.length →
    ds.length = xs.length → InBox (os ++ [o]) (ds ++ [d]) (xs ++ [x]) →
    InBox os ds xs ∧ o ≤ x ∧ x < o + d
  | [], [], [], o, d, x, _, _, h => by simpa [InBox] using h
  | o' :: os, d' :: ds, x' :: xs, o, d, x, h1, h2, h => by
    simp only [List.cons_append, InBox] at h ⊢
    obtain ⟨h3, h4⟩ := inBox_append_inv (by simpa using h1) (by simpa using h2) h.2
    exact ⟨⟨h.1, h3⟩, h4⟩
  | [], _ :: _, [], _, _, _, _, h2, _ => by simp at h2
  | [], _, _ :: _, _, _, _, h1, _, _ => by simp at h1
  | _ :: _, _, [], _, _, _, h1, _, _ => by simp at h1
  | _ :: _, [], _ :: _, _, _, _, _, h2, _ => by simp at h2

theorem cell_of_box (L : List Dim) (hL : ∀ d ∈ L, DimOk d) (m n : Nat)
    (h : InBox (coffs L n).reverse (L.map Dim.cs).reverse (coords L m).reverse) :
    cell L m = cell L n := by
  induction L generalizing m n with
  | nil => rfl
  | cons d R ih =>
    simp only [coffs, coords, List.map_cons, List.reverse_cons] at h
    obtain ⟨h1, h2, h3⟩ := inBox_append_inv (by simp [coffs_length, coords_length])
      (by simp [coords_length]) h
    simp only [cell]
    rw [ih (fun x hx => hL x (by simp [hx])) _ _ h1]
    congr 1
    apply Nat.div_eq_of_lt_le
    · exact h2
    · rw [Nat.add_mul, Nat.one_mul]; exact h3

theorem stored_inv {p : Profile} {ds : Dataset} {L : List Dim} (hS : Sel p ds L) {m n k : Nat}
    {c : Chunk} (hoff : c.offset = (coffs L n).reverse)
    (h : StoredAt ds (coords L m).reverse c k) : cell L m = cell L n ∧ k = pos L m := by
  obtain ⟨-, h2, h3⟩ := h
  rw [hoff, hS.cs] at h2
  have hc := cell_of_box L hS.dims m n h2
  refine ⟨hc, ?_⟩
  have : coffs L n = coffs L m := by rw [← coffs_eq L n, ← coffs_eq L m, hc]
  rw [h3, hoff, this, hS.cs, pos_linear L hS.dims]

/-- The iterator claiming to be at the `n`-th element, with the coordinates of the `q`-th. -/
def stateOff (L : List Dim) (n q : Nat) : Slicer :=
  { offset := n, coords := (digits L q).reverse, indices := (L.map Dim.idx).reverse,
    counts := (L.map Dim.cnt).reverse, stop := tot L }

/-- What a successful call of `next` did in a debug build. -/
theorem next_inv {ds : Dataset} {L : List Dim} (h : Sel .debug ds L) (hne : L ≠ []) {n q : Nat}
    (hn : n < tot L) {it : Item} {s' : Slicer}
    (hx : (stateOff L n q).next .debug ds = ok (some (it, s'))) :
    ∃ w, it.chunk.offset = (coffs L q).reverse ∧ it.start = pos L q ∧ it.stop = pos L q + w.adv ∧
      0 < w.adv ∧ walk .debug (tot L) 0 0 n (lanesAt 1 L q) = ok w ∧
      s' = { stateOff L n q with offset := w.soff, coords := w.offs.reverse } := by
  obtain ⟨c, hc, hoff, hget⟩ := h.chunkAt q
  have hprod : ds.chunkShape.prod = (L.map Dim.cs).prod := by rw [h.cs, List.prod_reverse]
  have hchunk := h.wf.fits.chunk
  have hbox := inBox_coords L h.dims q
  unfold Slicer.next at hx
  have hns : ds.isScalar = false := by
    unfold Dataset.isScalar; rw [h.shp]
    cases L with
    | nil => exact absurd rfl hne
    | cons d L => simp
  rw [if_neg (by simp [stateOff]; omega), hns] at hx
  simp only [Bool.false_eq_true, if_false] at hx
  simp only [stateOff] at hx
  rw [addAll_digits .debug L h.dims q, ok_bind, hc, ok_bind] at hx
  have hstart : chunkStartAux .debug 0 (coords L q).reverse c.offset ds.chunkDimSz
      = ok (pos L q) := by
    rw [h.wf.fields.2.2.2.1, hoff, h.cs, chunkStartAux_ok .debug _ _ _ _ hbox,
      pos_linear L h.dims q, Nat.zero_add]
    have := pos_lt L h.dims q
    rw [pos_linear L h.dims q]; omega
  have hlanes : (mkLanes (L.map Dim.idx).reverse (digits L q).reverse
      (L.map Dim.cnt).reverse c.offset ds.chunkShape ds.chunkDimSz ds.shape).reverse
      = lanesAt 1 L q := by
    have := mkLanes_eq 1 L q
    simp only [Nat.one_mul, List.map_id'] at this
    rw [h.wf.fields.2.2.2.1, hoff, h.cs, h.shp]; exact this
  rw [hlanes, hstart] at hx
  obtain ⟨_, -, hx⟩ := bind_eq_ok.1 hx
  obtain ⟨_, -, hx⟩ := bind_eq_ok.1 hx
  rw [ok_bind] at hx
  obtain ⟨w, hw, hx⟩ := bind_eq_ok.1 hx
  obtain ⟨_, ha, hx⟩ := bind_eq_ok.1 hx
  have ha := debugAssert_debug ha
  obtain ⟨e, he, hx⟩ := bind_eq_ok.1 hx
  obtain ⟨rfl, -⟩ := add64_debug he
  obtain ⟨_, -, hx⟩ := bind_eq_ok.1 hx
  obtain ⟨_, -, hx⟩ := bind_eq_ok.1 hx
  have hx := Option.some.inj (Outcome.ok.inj hx)
  obtain ⟨rfl, rfl⟩ := Prod.mk.inj hx
  exact ⟨w, hoff, rfl, rfl, by simpa using ha, hw, rfl⟩

theorem run_inner {L : List Dim} {n a m : Nat} (h : Run L n a) (h1 : n < m) (h2 : m < n + a) :
    Run L (m - 1) 2 := by
  have g1 := h (m - 1 - n) (by omega)
  have g2 := h (m - n) (by omega)
  rw [show n + (m - 1 - n) = m - 1 by omega] at g1
  rw [show n + (m - n) = m by omega] at g2
  intro i hi
  rcases (show i = 0 ∨ i = 1 by omega) with rfl | rfl
  · simp
  · rw [show m - 1 + 1 = m by omega]
    refine ⟨g2.1.trans g1.1.symm, by omega⟩

/-- A right iteration is right at every element that starts a new chunk or run. -/
theorem steps_of_trace {ds : Dataset} {L : List Dim} (h : Sel .debug ds L) (hne : L ≠ [])
    (fuel n q : Nat) (hq : q < tot L) {items : List Item}
    (ht : Slicer.trace .debug ds fuel (stateOff L n q) = ⟨items, ok ()⟩)
    (hfor : List.Forall₂ (fun m (ck : Chunk × Nat) => StoredAt ds (coords L m).reverse ck.1 ck.2)
      (List.range' n (tot L - n)) (expand items)) :
    (n < tot L → q = n) ∧
    ∀ m, n ≤ m → m < tot L → (m = n ∨ ¬ Run L (m - 1) 2) → StepOk L m := by
  induction fuel generalizing n q items with
  | zero => simp [Slicer.trace] at ht
  | succ fuel ih =>
    rcases Nat.lt_or_ge n (tot L) with hn | hn
    swap
    · exact ⟨fun h => by omega, fun m h1 h2 => by omega⟩
    simp only [Slicer.trace] at ht
    -- `next` returns an item
    match hx : (stateOff L n q).next .debug ds with
    | err e => rw [hx] at ht; simp at ht
    | .panic f => rw [hx] at ht; simp at ht
    | ub => rw [hx] at ht; simp at ht
    | diverge => rw [hx] at ht; simp at ht
    | ok none =>
      exfalso
      rw [hx] at ht
      simp only [Trace.mk.injEq, and_true] at ht
      subst ht
      simp only [expand, List.flatMap_nil, List.forall₂_nil_right_iff, List.range'_eq_nil_iff] at hfor
      omega
    | ok (some (it, s')) =>
      rw [hx] at ht
      simp only [Trace.mk.injEq] at ht
      obtain ⟨rfl, hend⟩ := ht
      obtain ⟨w, hoff, hst, hsp, ha, hw, rfl⟩ := next_inv h hne hn hx
      obtain ⟨t, ht1, ht2⟩ := walk_mono h.dims hw
      rw [Nat.zero_add] at ht1
      obtain ⟨q', hq', hoffs⟩ := digits_surj (walk_lt h.dims hw)
      have hs' : ({ stateOff L n q with offset := w.soff, coords := w.offs.reverse } : Slicer)
          = stateOff L (n + w.adv) q' := by
        simp only [stateOff, hoffs, ht2, ht1]
      rw [hs'] at hend hfor
      -- the elements of this item
      have hlen : w.adv ≤ tot L - n := by
        have := hfor.length_eq
        simp only [expand, List.flatMap_cons, List.length_range', List.length_append,
          List.length_map, hst, hsp] at this
        omega
      have hsplit : List.range' n (tot L - n)
          = List.range' n w.adv ++ List.range' (n + w.adv) (tot L - (n + w.adv)) := by
        rw [List.range'_append_1]; congr 1; omega
      rw [hsplit] at hfor
      simp only [expand, List.flatMap_cons] at hfor
      rw [hst, hsp, Nat.add_sub_cancel_left] at hfor
      have hlen2 : ((List.range' (pos L q) w.adv).map fun k => (it.chunk, k)).length = w.adv := by
        simp
      have hhead := List.forall₂_take_append _ _ _ hfor
      have htail := List.forall₂_drop_append _ _ _ hfor
      rw [hlen2] at hhead htail
      rw [List.take_left' (by simp)] at hhead
      rw [List.drop_left' (by simp)] at htail
      rw [List.forall₂_map_right_iff, List.forall₂_iff_get] at hhead
      have hel : ∀ i, i < w.adv → StoredAt ds (coords L (n + i)).reverse it.chunk (pos L q + i) := by
        intro i hi
        have := hhead.2 i (by simpa using hi) (by simpa using hi)
        simpa using this
      have hst' : ∀ i, i < w.adv → cell L (n + i) = cell L q ∧ pos L q + i = pos L (n + i) :=
        fun i hi => stored_inv h hoff (hel i hi)
      have hqn : q = n := by
        have := hst' 0 ha
        exact place_inj h.dims hq hn (by simpa using this.1.symm) (by simpa using this.2)
      subst hqn
      have hrun : Run L q w.adv := fun i hi => ⟨(hst' i hi).1, (hst' i hi).2.symm⟩
      have hend' : Slicer.trace .debug ds fuel (stateOff L (q + w.adv) q')
          = ⟨(Slicer.trace .debug ds fuel (stateOff L (q + w.adv) q')).items, ok ()⟩ := by
        rw [← hend]
      obtain ⟨i1, i2⟩ := ih (q + w.adv) q' hq' hend' htail
      refine ⟨fun _ => rfl, ?_⟩
      intro m h1 h2 h3
      rcases Nat.lt_or_ge m (q + w.adv) with hlt | hge
      · rcases Nat.eq_or_lt_of_le h1 with rfl | hgt
        · refine ⟨w.adv, w.offs, ha, ?_, by omega, ?_, hrun⟩
          · rw [hw]; congr 1; cases w; simp only at ht1 ht2 ⊢; subst ht1; rw [ht2]
          · intro hl; rw [hoffs, i1 hl]
        · rcases h3 with rfl | h3
          · omega
          · exact absurd (run_inner hrun hgt hlt) h3
      · refine i2 m hge h2 ?_
        rcases h3 with rfl | h3
        · omega
        · exact .inr h3

/-- In a debug build a right enumeration is only possible for a good selection. -/
theorem good_of_enumerates {ds : Dataset} {ext : Extents} {start count : List Nat}
    (hwf : WF .debug ds) (hsel : Selects ext ds.shape start count)
    (hb : InBounds start count ds.shape) {items : List Item}
    (hx : ds.chunkSlices .debug ext = ok ⟨items, ok ()⟩)
    (hen : Enumerates ds start count items) : Good .debug ds start count := by
  unfold Good
  unfold Dataset.chunkSlices at hx
  rw [chunkSlicer_ok hwf hsel hb, ok_bind] at hx
  obtain ⟨hS, e1, e2⟩ := sel_of hwf hb
  generalize hL : dimsOf start count ds.chunkShape ds.shape = L at *
  by_cases hne : L = []
  · subst hne; rfl
  have htot : count.prod = tot L := by
    rw [e2, List.prod_reverse]; rfl
  have hst : (⟨0, ds.shape.map (fun _ => 0), start, count, count.prod⟩ : Slicer)
      = stateOff L 0 0 := by
    unfold stateOff
    rw [htot, ← e1, ← e2]
    congr 1
    rw [hS.shp]
    clear * -
    induction L with
    | nil => rfl
    | cons d L ih =>
      simp only [List.map_cons, List.reverse_cons, List.map_append, List.map_nil, digits,
        Nat.zero_mod, Nat.zero_div, ih]
  rw [hst] at hx
  have hx := Outcome.ok.inj hx
  unfold Enumerates at hen
  rw [e1, e2, rowMajor_eq L hS.dims, List.forall₂_map_left_iff, List.range_eq_range'] at hen
  obtain ⟨-, h2⟩ := steps_of_trace hS hne _ 0 0 (tot_pos hS.dims) hx (by simpa using hen)
  refine good_of_steps L hS.dims fun m hm hr => h2 m (Nat.zero_le _) hm ?_
  rcases Nat.eq_zero_or_pos m with h0 | h0
  · exact .inl h0
  · exact .inr (reach_break L hS.dims m hr h0 hm)

end Hidefix.Proofs
