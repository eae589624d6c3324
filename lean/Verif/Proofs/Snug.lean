import Verif.Proofs.UncutGood

/-!
# The loop of a release build on snug selections

The slices may be wrong (a slice may claim elements of the next chunk), but they are never more than
there are elements: the offset and the coordinates of the iterator stay in step.
-/

set_option autoImplicit false

namespace Hidefix.Proofs
open Hidefix Hidefix.Spec Outcome

/-- `Spec.Snug`, innermost dimension first; `S` is the size of the chunks in the dimensions inside. -/
def SnugL : Nat → List Dim → Prop
  | _, [] => True
  | _, [_] => True
  | S, d :: e :: R => Whole d ∧ (d.cs = 1 → S ≠ 1 → d.cnt = 1) ∧ SnugL (S * d.cs) (e :: R)

theorem SnugL.tail {S : Nat} {d : Dim} {R : List Dim} (h : SnugL S (d :: R)) : SnugL (S * d.cs) R := by
  cases R with
  | nil => trivial
  | cons e R => exact h.2.2

theorem SnugL.whole {S : Nat} {L : List Dim} (h : SnugL S L) : WholeInner L := by
  induction L generalizing S with
  | nil => trivial
  | cons d R ih =>
    cases R with
    | nil => trivial
    | cons e R => exact ⟨h.1, ih h.2.2⟩

theorem digits_cons (d : Dim) (R : List Dim) {r k o : Nat} (hr : r = k * d.cnt + o) (ho : o < d.cnt) :
    digits (d :: R) r = o :: digits R k := by
  have hc : 0 < d.cnt := by omega
  subst hr
  rw [digits, Nat.add_comm, Nat.add_mul_mod_self_right, Nat.mod_eq_of_lt ho, Nat.add_mul_div_right _ _ hc,
    Nat.div_eq_of_lt ho, Nat.zero_add]

theorem walk_snug {stop c adv soff S m : Nat} {L : List Dim} (hok : ∀ d ∈ L, DimOk d) (hL : SnugL S L)
    (hS : 0 < S) (hstop : stop < 2 ^ 62) (ht : stop = S * tot L) (hs : soff < stop) (hm : soff = S * (m + c))
    {w : WalkOut} (h : walk .release stop c adv soff (lanesAt S L m) = ok w) :
    ∃ q, q ≤ tot L ∧ w.soff = S * q ∧ w.offs = digits L q := by
  induction L generalizing c adv soff S m w with
  | nil =>
    have := Outcome.ok.inj h
    subst this
    refine ⟨m + c, ?_, hm, rfl⟩
    rw [hm, ht] at hs
    exact Nat.le_of_lt (Nat.lt_of_mul_lt_mul_left hs)
  | cons d R ih =>
    have hd := hok d (by simp)
    have hR := fun x hx => hok x (List.mem_cons_of_mem d hx)
    have hcnt := hd.cnt
    have ho : m % d.cnt < d.cnt := Nat.mod_lt _ hcnt
    obtain ⟨f1, f2, f3, f4, f5, f6, f7⟩ := dim_facts hd ho
    have hfit := hd.fit
    have hedge := hd.edge
    have hW : W = 2 ^ 64 := by decide
    have h62 : (2 : Nat) ^ 62 = 4611686018427387904 := by decide
    have h64 : (2 : Nat) ^ 64 = 18446744073709551616 := by decide
    have hS' : 0 < S * d.cs := Nat.mul_pos hS hd.cs
    rw [tot_cons] at ht ⊢
    have hlt : m + c < d.cnt * tot R := by
      rw [hm, ht] at hs
      exact Nat.lt_of_mul_lt_mul_left hs
    have hT : d.cnt * tot R ≤ stop := by
      rw [ht]
      exact Nat.le_mul_of_pos_left _ hS
    have hmm := Nat.div_add_mod m d.cnt
    simp only [lanesAt, walk] at h
    rw [cutSize_lane hd ho] at h
    simp only [ok_bind] at h
    rw [add64_of_lt (by omega), ok_bind] at h
    generalize hoff : m % d.cnt = o at *
    generalize hk : m / d.cnt = k at *
    have hdm := Nat.div_add_mod (o + c) d.cnt
    have hcurlt : (o + c) % d.cnt < d.cnt := Nat.mod_lt _ hcnt
    generalize hcur : (o + c) % d.cnt = cur at *
    generalize hc1 : (o + c) / d.cnt = c1 at *
    have hmc : m + c = d.cnt * (k + c1) + cur := by rw [Nat.mul_add]; omega
    have hkc : k + c1 < tot R := by
      rw [hmc] at hlt
      exact Nat.lt_of_mul_lt_mul_left (Nat.lt_of_le_of_lt (Nat.le_add_right _ _) hlt)
    have hkc2 : d.cnt * (k + c1) + d.cnt ≤ d.cnt * tot R := by
      have := Nat.mul_le_mul_left d.cnt (show k + c1 + 1 ≤ tot R by omega)
      rwa [Nat.mul_add, Nat.mul_one] at this
    have hkc3 : k + c1 ≤ d.cnt * (k + c1) := Nat.le_mul_of_pos_left _ hcnt
    split at h
    · rename_i hsk
      obtain ⟨r, h2, h⟩ := bind_eq_ok.1 h
      have := Outcome.ok.inj h
      subst this
      cases R with
      | nil =>
        have := Outcome.ok.inj h2
        subst this
        refine ⟨m + c, by omega, hm, ?_⟩
        rw [digits_cons d [] (k := k + c1) (o := cur) (by rw [hmc, Nat.mul_comm]) hcurlt]
        rfl
      | cons e R =>
        have hcs1 : d.cs = 1 := by rw [← hL.1 o ho]; exact hsk.1
        have hcnt1 : d.cnt = 1 := hL.2.1 hcs1 hsk.2
        have hcur0 : cur = 0 := by omega
        obtain ⟨q, q1, q2, q3⟩ := ih (w := r) (m := k) (c := c1) hR hL.tail hS' (by rw [ht, hcs1, hcnt1]; simp) hs
          (by rw [hm, hcs1, hmc, hcnt1, hcur0]; simp) h2
        refine ⟨q, by rw [hcnt1]; simpa using q1, by simpa [hcs1] using q2, ?_⟩
        rw [digits_cons d (e :: R) (k := q) (o := cur) (by rw [hcnt1, hcur0]; simp) hcurlt]
        simp only [q3]
    · rw [debugAssert_release, ok_bind] at h
      rw [add64_of_lt (by omega)] at h
      simp only [ok_bind] at h
      rw [f4, sub64_of_le (by omega)] at h
      simp only [ok_bind] at h
      rw [show min (d.coff o + d.cs) d.shp - d.idx = d.cce o from rfl] at h
      generalize ho2 : min d.cnt (d.cce o) = o2 at *
      have ho2le : o2 ≤ d.cnt := by omega
      -- the new offset
      have key : ∃ D diff, sub64 .release o2 cur = ok D ∧ mul64 .release D S = ok diff ∧
          (soff + diff) % W = S * (d.cnt * (k + c1) + o2) := by
        have e1 : soff = S * (d.cnt * (k + c1)) + S * cur := by rw [hm, hmc, Nat.mul_add]
        have b1 : S * (d.cnt * (k + c1)) + S * d.cnt ≤ stop := by
          rw [ht, ← Nat.mul_add]
          exact Nat.mul_le_mul_left _ hkc2
        have b2 : S * cur ≤ S * d.cnt := Nat.mul_le_mul_left _ (Nat.le_of_lt hcurlt)
        have b3 : S * o2 ≤ S * d.cnt := Nat.mul_le_mul_left _ ho2le
        rcases Nat.lt_or_ge o2 cur with hneg | hge
        · obtain ⟨x, hx, hx0⟩ : ∃ x, cur = o2 + x ∧ 0 < x := ⟨cur - o2, by omega, by omega⟩
          have e2 : S * cur = S * o2 + x * S := by rw [hx, Nat.mul_add, Nat.mul_comm x]
          refine ⟨W - x, W - x * S, ?_, mul64_back hx0 hS (by omega), ?_⟩
          · rw [hx]
            exact sub64_back (by omega) hx0 (by omega)
          · rw [Nat.mul_add]
            rw [show soff + (W - x * S) = S * (d.cnt * (k + c1)) + S * o2 + W by omega, Nat.add_mod_right,
              Nat.mod_eq_of_lt (by omega)]
        · have e2 : S * o2 = S * cur + (o2 - cur) * S := by
            rw [Nat.mul_comm (o2 - cur), ← Nat.mul_add]
            congr 1
            omega
          refine ⟨o2 - cur, (o2 - cur) * S, sub64_of_le hge, mul64_of_lt (by omega), ?_⟩
          rw [Nat.mul_add, Nat.mod_eq_of_lt (by omega)]
          omega
      obtain ⟨D, diff, hD, hdiff, hnew⟩ := key
      have hdiv : o2 / d.cnt ≤ 1 := by
        have := Nat.div_le_div_right (c := d.cnt) ho2le
        rwa [Nat.div_self hcnt] at this
      rw [hD, ok_bind, hdiff, ok_bind, add64_release, ok_bind, add64_release, ok_bind, hnew,
        add64_of_lt (by omega), ok_bind] at h
      have hnum : d.cnt * (k + c1) + o2 = (k + (c1 + o2 / d.cnt)) * d.cnt + o2 % d.cnt := by
        have := Nat.div_add_mod o2 d.cnt
        rw [← Nat.add_assoc, Nat.add_mul, Nat.mul_comm (k + c1), Nat.mul_comm (o2 / d.cnt)]
        omega
      split at h
      · rename_i hgo
        obtain ⟨r, h2, h⟩ := bind_eq_ok.1 h
        have := Outcome.ok.inj h
        subst this
        have hmin : o2 = d.cnt := by omega
        cases R with
        | nil =>
          have := Outcome.ok.inj h2
          subst this
          refine ⟨d.cnt * (k + c1) + o2, by omega, rfl, ?_⟩
          rw [digits_cons d [] hnum (Nat.mod_lt _ hcnt)]
          rfl
        | cons e R =>
          have hcs : d.cs = d.cnt := by
            have := hL.1 o ho
            omega
          have hdiv1 : o2 / d.cnt = 1 := by rw [hmin, Nat.div_self hcnt]
          have hmod0 : o2 % d.cnt = 0 := by rw [hmin, Nat.mod_self]
          rw [hdiv1] at h2
          obtain ⟨q, q1, q2, q3⟩ := ih (w := r) (m := k) (c := c1 + 1) hR hL.tail hS'
            (by rw [ht, hcs, Nat.mul_assoc]) hgo.2.2
            (by rw [hcs, hmin]; ring) h2
          refine ⟨q * d.cnt, ?_, ?_, ?_⟩
          · rw [Nat.mul_comm]
            exact Nat.mul_le_mul_left _ q1
          · simp only [q2, hcs]
            ring
          · rw [digits_cons d (e :: R) (k := q) (o := 0) (by simp) hcnt]
            simp only [q3, hmod0]
      · rw [debugAssert_release, ok_bind] at h
        rw [carryRest_lane .release _ R hR k (c1 + o2 / d.cnt) (by omega), ok_bind] at h
        have := Outcome.ok.inj h
        subst this
        refine ⟨d.cnt * (k + c1) + o2, by omega, rfl, ?_⟩
        rw [digits_cons d R hnum (Nat.mod_lt _ hcnt)]

/-- The whole iteration: nonempty slices, as long together as the selection. -/
theorem trace_snug {ds : Dataset} {L : List Dim} (h : Sel .release ds L) (hne : L ≠ []) (hL : SnugL 1 L)
    (hroom : Room (tot L) 1 L) (hstop : tot L < 2 ^ 62) (hchunk : (L.map Dim.cs).prod < 2 ^ 62) (fuel n : Nat)
    (hn : n ≤ tot L) (hf : tot L - n < fuel) :
    ∃ items, Slicer.trace .release ds fuel (stateAt L n) = ⟨items, ok ()⟩ ∧ total items = tot L - n ∧
      ∀ it ∈ items, it.start < it.stop ∧ it.stop ≤ (L.map Dim.cs).prod + tot L := by
  have hW : W = 2 ^ 64 := by decide
  have h62 : (2 : Nat) ^ 62 = 4611686018427387904 := by decide
  have h64 : (2 : Nat) ^ 64 = 18446744073709551616 := by decide
  induction fuel generalizing n with
  | zero => omega
  | succ fuel ih =>
    rcases Nat.lt_or_ge n (tot L) with hlt | hge
    swap
    · have hx : (stateAt L n).next .release ds = ok none := by
        unfold Slicer.next
        rw [if_pos (by simpa [stateAt] using hge)]
      simp only [Slicer.trace, hx]
      exact ⟨[], rfl, by simp [total]; omega, by simp⟩
    have hst0 : stateAt L n = stateOff L n n := rfl
    rw [hst0]
    obtain ⟨it, s', hx⟩ := next_release h hne hlt (q := n)
    obtain ⟨w, hoff, hst, hsp, hw, rfl⟩ := next_invR h hne hlt hx
    obtain ⟨g1, g2, g3, g4⟩ := walk_uncut h.dims (.inl hL.whole) Nat.one_pos hroom hlt (Nat.zero_le _) hstop
      (.inl ⟨rfl, rfl, rfl⟩) (fun _ => hne) hw
    obtain ⟨q, q1, q2, q3⟩ := walk_snug h.dims hL Nat.one_pos hstop (by simp) hlt (by simp) hw
    rw [Nat.one_mul] at q2
    have hp := pos_lt L h.dims n
    have hs' : ({ stateOff L n n with offset := w.soff, coords := w.offs.reverse } : Slicer) = stateAt L q := by
      simp only [stateOff, stateAt, q2, q3]
    rw [hs'] at hx
    obtain ⟨items, i1, i2, i3⟩ := ih q q1 (by omega)
    simp only [Slicer.trace, hx, i1]
    rw [Nat.mod_eq_of_lt (by omega)] at hsp
    refine ⟨it :: items, rfl, ?_, ?_⟩
    · simp only [total, List.map_cons, List.sum_cons] at i2 ⊢
      omega
    · intro it' hit
      rcases List.mem_cons.1 hit with rfl | hit
      · omega
      · exact i3 it' hit

/-! ## From start, count, chunk shape and shape -/

theorem prod_one_of {l : List Dim} (h : ∀ y ∈ l, y.cs = 1) : (l.map Dim.cs).prod = 1 := by
  induction l with
  | nil => rfl
  | cons d l ih => simp [h d (by simp), ih fun y hy => h y (by simp [hy])]

theorem snugL_of {P L : List Dim} (hw : WholeInner L)
    (h : ∀ outer x inner, L.reverse ++ P = outer ++ x :: inner → outer ≠ [] → x.cs = 1 → 1 < x.cnt →
      ∀ y ∈ inner, y.cs = 1) (hd : ∀ d ∈ L, DimOk d) : SnugL (P.map Dim.cs).prod L := by
  induction L generalizing P with
  | nil => trivial
  | cons d R ih =>
    cases R with
    | nil => trivial
    | cons e R =>
      refine ⟨hw.1, fun h1 h2 => ?_, ?_⟩
      · have hcnt := (hd d (by simp)).cnt
        rcases Nat.lt_or_ge 1 d.cnt with hc | hc
        · exfalso
          have := h (e :: R).reverse d P (by simp) (by simp) h1 hc
          exact h2 (prod_one_of this)
        · omega
      · have := ih (P := d :: P) hw.2 (by simpa using h) (fun x hx => hd x (by simp [hx]))
        rwa [List.map_cons, List.prod_cons, Nat.mul_comm] at this

theorem snug_snugL {shape chunkShape start count : List Nat} (h : Snug shape chunkShape start count)
    (hd : ∀ d ∈ dimsOf start count chunkShape shape, DimOk d) : SnugL 1 (dimsOf start count chunkShape shape) := by
  refine snugL_of (P := []) (uncut_whole h.1) ?_ hd
  intro outer x inner e
  refine h.2 outer x inner ?_
  rw [axes_eq, ← e]
  simp

/-- A release build on a snug selection: the slices are not empty, and as long together as the selection. -/
theorem chunkSlices_snug {ds : Dataset} {ext : Extents} {start count : List Nat} (hwf : WF .release ds)
    (hsel : Selects ext ds.shape start count) (hb : InBounds start count ds.shape)
    (hsn : Snug ds.shape ds.chunkShape start count)
    (hsize : ∀ n ∈ ds.shape, count.prod + n * ds.chunkShape.prod < 2 ^ 62) :
    ∃ items, ds.chunkSlices .release ext = ok ⟨items, ok ()⟩ ∧ total items = count.prod ∧
      ∀ it ∈ items, it.start < it.stop ∧ it.stop ≤ ds.chunkShape.prod + count.prod ∧ it.chunk ∈ ds.chunks := by
  obtain ⟨hS, e1, e2⟩ := sel_of hwf hb
  by_cases hne : dimsOf start count ds.chunkShape ds.shape = []
  · have hg : Good .release ds start count := by unfold Good; rw [hne]; rfl
    obtain ⟨items, h1, h2, h3⟩ := chunkSlices_good hwf hsel hb hg
    refine ⟨items, h1, Enumerates.total h2 (by rw [hb.1, hb.2.1]), fun it hit => ?_⟩
    obtain ⟨a, b, c⟩ := h3 it hit
    exact ⟨a, by omega, c⟩
  have hsnug := snug_snugL hsn hS.dims
  unfold Dataset.chunkSlices
  rw [chunkSlicer_ok hwf hsel hb, ok_bind]
  have hshape := count_prod_le hwf hb
  have helems := hwf.fits.elems
  generalize hL : dimsOf start count ds.chunkShape ds.shape = L at *
  have htot : count.prod = tot L := by
    rw [e2, List.prod_reverse]; rfl
  have hst : (⟨0, ds.shape.map (fun _ => 0), start, count, count.prod⟩ : Slicer) = stateAt L 0 := by
    unfold stateAt
    rw [htot, ← e1, ← e2]
    congr 1
    rw [hS.shp]
    clear * -
    induction L with
    | nil => rfl
    | cons d L ih =>
      simp only [List.map_cons, List.reverse_cons, List.map_append, List.map_nil, digits,
        Nat.zero_mod, Nat.zero_div, ih]
  rw [hst]
  have hR : Room (tot L) 1 L := by
    refine room_of hS.dims (B := ds.chunkShape.prod) ?_ fun d hd => ?_
    · rw [hS.cs, List.prod_reverse, Nat.one_mul]
    · rw [← htot]
      refine hsize _ ?_
      rw [hS.shp, List.mem_reverse]
      exact List.mem_map_of_mem hd
  obtain ⟨d, hd⟩ := List.exists_mem_of_ne_nil L hne
  have hd1 := hS.dims d hd
  have hb := hsize d.shp (by rw [hS.shp, List.mem_reverse]; exact List.mem_map_of_mem hd)
  have hone : 1 * ds.chunkShape.prod ≤ d.shp * ds.chunkShape.prod :=
    Nat.mul_le_mul_right _ (by have := hd1.fit; have := hd1.cnt; omega)
  have hfuel : tot L - 0 < Slicer.fuel ds := by
    have : W ≤ W ^ (ds.shape.length + 1) := Nat.le_self_pow (by omega) W
    unfold Slicer.fuel
    omega
  have hcp : (L.map Dim.cs).prod = ds.chunkShape.prod := by rw [hS.cs, List.prod_reverse]
  obtain ⟨items, i1, i2, i3⟩ := trace_snug hS hne hsnug hR (by omega) (by rw [hcp]; omega) (Slicer.fuel ds) 0
    (Nat.zero_le _) hfuel
  have hmem := trace_mem (p := .release) (ds := ds) (Slicer.fuel ds) (stateAt L 0)
  rw [i1] at hmem
  refine ⟨items, ?_, by omega, fun it hit => ?_⟩
  · unfold Slicer.run
    rw [i1]
  · obtain ⟨a, b⟩ := i3 it hit
    exact ⟨a, by omega, hmem it hit⟩

theorem sliced_of_snug {ds : Dataset} {ext : Extents} {start count : List Nat} (hwf : WF .release ds)
    (hsel : Selects ext ds.shape start count) (hb : InBounds start count ds.shape)
    (hsn : Snug ds.shape ds.chunkShape start count)
    (hsize : ∀ n ∈ ds.shape, count.prod + n * ds.chunkShape.prod < 2 ^ 62)
    (hW : (ds.chunkShape.prod + count.prod) * ds.dsize < W) :
    ∃ items, Sliced .release ds ext items (count.prod * ds.dsize) ∧ total items = count.prod := by
  obtain ⟨items, h1, h2, h3⟩ := chunkSlices_snug hwf hsel hb hsn hsize
  have hW' : count.prod * ds.dsize < W :=
    Nat.lt_of_le_of_lt (Nat.mul_le_mul_right _ (Nat.le_add_left _ _)) hW
  refine ⟨items, ⟨h1, reqBytes_ok hwf hsel hb hW', fun it hit => (h3 it hit).1, fun it hit => ?_,
    fun it hit => (h3 it hit).2.2, by rw [h2], ?_, hW'⟩, h2⟩
  · exact Nat.lt_of_le_of_lt (Nat.mul_le_mul_right _ (h3 it hit).2.1) hW
  · rw [h2]
    exact Nat.lt_of_le_of_lt (count_prod_le hwf hb) hwf.fits.elems

end Hidefix.Proofs
