import Verif.Proofs.Within

/-!
# The loop of a release build on selections that meet no cut chunk

Except possibly in the outermost and innermost dimensions. There every call of `next` advances by at least one element:
what the loop takes back is never as much as it has gone forward.
-/

set_option autoImplicit false

namespace Hidefix.Proofs
open Hidefix Hidefix.Spec Outcome

/-- No chunk that the selection meets is cut in this dimension. -/
def Whole (d : Dim) : Prop := ∀ o, o < d.cnt → d.csz o = d.cs

/-- All dimensions but the outermost (the last in the list) are whole. -/
def WholeInner : List Dim → Prop
  | [] => True
  | [_] => True
  | d :: e :: R => Whole d ∧ WholeInner (e :: R)

theorem WholeInner.tail {d : Dim} {R : List Dim} (h : WholeInner (d :: R)) : WholeInner R := by
  cases R with
  | nil => trivial
  | cons e R => exact h.2

theorem WholeInner.head {d e : Dim} {R : List Dim} (h : WholeInner (d :: e :: R)) : Whole d := h.1

theorem carryRest_release (c : Nat) (ls : List Lane) : ∃ r, carryRest .release c ls = ok r := by
  induction ls generalizing c with
  | nil => exact ⟨_, rfl⟩
  | cons l ls ih =>
    simp only [carryRest, add64_release, ok_bind]
    split
    · exact ⟨_, rfl⟩
    · obtain ⟨r, hr⟩ := ih (((l.off + c) % W) / l.cnt)
      rw [hr, ok_bind]
      exact ⟨_, rfl⟩

theorem sub64_release (a b : Nat) : ∃ c, sub64 .release a b = ok c := by
  unfold sub64
  split
  · exact ⟨_, rfl⟩
  · exact ⟨_, rfl⟩

/-- The loop of a release build never fails. -/
theorem walk_release (stop c adv soff : Nat) (ls : List Lane) : ∃ w, walk .release stop c adv soff ls = ok w := by
  induction ls generalizing c adv soff with
  | nil => exact ⟨_, rfl⟩
  | cons l ls ih =>
    have hc : ∃ z, cutSize .release l = ok z := by
      simp only [cutSize, add64_release, ok_bind]
      split
      · obtain ⟨a, ha⟩ := sub64_release ((l.coff + l.cs) % W) l.shp
        rw [ha, ok_bind]
        exact sub64_release _ _
      · exact ⟨_, rfl⟩
    obtain ⟨z, hz⟩ := hc
    simp only [walk, hz, ok_bind, add64_release, mul64_release, debugAssert_release]
    split
    · obtain ⟨w, hw⟩ := ih (((l.off + c) % W) / l.cnt) adv soff
      rw [hw, ok_bind]
      exact ⟨_, rfl⟩
    · obtain ⟨a, ha⟩ := sub64_release ((l.coff + z) % W) l.idx
      rw [ha, ok_bind]
      obtain ⟨b, hb⟩ := sub64_release (min l.cnt a) (((l.off + c) % W) % l.cnt)
      rw [hb, ok_bind]
      split
      · obtain ⟨w, hw⟩ := ih ((((l.off + c) % W) / l.cnt + min l.cnt a / l.cnt) % W)
          ((adv + b * l.cdim % W) % W) ((soff + b * l.cdim % W) % W)
        rw [hw, ok_bind]
        exact ⟨_, rfl⟩
      · obtain ⟨r, hr⟩ := carryRest_release ((((l.off + c) % W) / l.cnt + min l.cnt a / l.cnt) % W) ls
        rw [hr, ok_bind]
        exact ⟨_, rfl⟩

/-- What the loop knows of its carry `c` and how far it got when it comes to a dimension of stride `S`. -/
def Ahead (c adv S : Nat) : Prop := (c = 0 ∧ adv = 0 ∧ S = 1) ∨ 1 + (c - 1) * S ≤ adv

theorem walk_uncut {stop c adv soff S m : Nat} {L : List Dim} (hok : ∀ d ∈ L, DimOk d)
    (hL : WholeInner L ∨ (c = 0 ∧ S = 1 ∧ WholeInner L.tail))
    (hS : 0 < S) (hroom : Room stop S L) (hs : soff < stop) (ha : adv ≤ soff) (hstop : stop < 2 ^ 62)
    (hah : Ahead c adv S) (hne : adv = 0 → L ≠ []) {w : WalkOut}
    (h : walk .release stop c adv soff (lanesAt S L m) = ok w) :
    0 < w.adv ∧ w.soff + adv = soff + w.adv ∧ w.adv ≤ w.soff ∧ w.soff < 2 ^ 62 := by
  induction L generalizing c adv soff S m w with
  | nil =>
    have := Outcome.ok.inj h
    subst this
    have : adv ≠ 0 := fun h => hne h rfl
    exact ⟨by simp only; omega, by simp only, ha, Nat.lt_trans hs hstop⟩
  | cons d R ih =>
    have hd := hok d (by simp)
    have hR := fun x hx => hok x (List.mem_cons_of_mem d hx)
    have hcnt := hd.cnt
    have ho : m % d.cnt < d.cnt := Nat.mod_lt _ hcnt
    obtain ⟨f1, f2, f3, f4, f5, f6, f7⟩ := dim_facts hd ho
    have hfit := hd.fit
    have hW : W = 2 ^ 64 := by decide
    have h62 : (2 : Nat) ^ 62 = 4611686018427387904 := by decide
    have h64 : (2 : Nat) ^ 64 = 18446744073709551616 := by decide
    obtain ⟨r1, r2⟩ := hroom
    have hS' : 0 < S * d.cs := Nat.mul_pos hS hd.cs
    have hcS : d.cnt * 1 ≤ d.cnt * S := Nat.mul_le_mul_left _ hS
    have hc62 : c - 1 ≤ adv := by
      rcases hah with ⟨h1, -, -⟩ | h1
      · omega
      · have : (c - 1) * 1 ≤ (c - 1) * S := Nat.mul_le_mul_left _ hS
        omega
    have hT : WholeInner R := by
      rcases hL with hL | ⟨-, -, hL⟩
      · exact hL.tail
      · exact hL
    simp only [lanesAt, walk] at h
    rw [cutSize_lane hd ho] at h
    simp only [ok_bind] at h
    rw [add64_of_lt (by omega), ok_bind] at h
    generalize hoff : m % d.cnt = o at *
    have hdm := Nat.div_add_mod (o + c) d.cnt
    have hcurlt : (o + c) % d.cnt < d.cnt := Nat.mod_lt _ hcnt
    generalize hcur : (o + c) % d.cnt = cur at *
    generalize hc1 : (o + c) / d.cnt = c1 at *
    have hcle : cur ≤ o + c := by rw [← hcur]; exact Nat.mod_le _ _
    split at h
    · rename_i hsk
      obtain ⟨r, h2, h⟩ := bind_eq_ok.1 h
      have := Outcome.ok.inj h
      subst this
      have hah' : 1 + (c - 1) * S ≤ adv := hah.resolve_left fun h => hsk.2 h.2.2
      have hc1c : c1 - 1 ≤ c - 1 := by
        rcases Nat.eq_zero_or_pos c1 with h0 | h0
        · omega
        · have : c1 * 1 ≤ c1 * d.cnt := Nat.mul_le_mul_left _ hcnt
          have e : d.cnt * c1 = d.cnt * (c1 - 1) + d.cnt := by
            obtain ⟨k, rfl⟩ : ∃ k, c1 = k + 1 := ⟨c1 - 1, by omega⟩
            simp [Nat.mul_add]
          have : 1 * (c1 - 1) ≤ d.cnt * (c1 - 1) := Nat.mul_le_mul_right _ hcnt
          omega
      cases R with
      | nil =>
        have := Outcome.ok.inj h2
        subst this
        exact ⟨by simp only; omega, by simp only, by simp only; omega, by simp only; omega⟩
      | cons e R =>
        have hL := hL.resolve_right fun h => hsk.2 h.2.1
        have hcs1 : d.cs = 1 := by rw [← hL.head o ho]; exact hsk.1
        refine ih (w := r) hR (.inl hT) hS' r2 hs ha (.inr ?_) (fun h => by omega) h2
        rw [hcs1, Nat.mul_one]
        have : (c1 - 1) * S ≤ (c - 1) * S := Nat.mul_le_mul_right _ hc1c
        omega
    · rw [debugAssert_release, ok_bind] at h
      rw [add64_of_lt (by omega)] at h
      simp only [ok_bind] at h
      rw [f4, sub64_of_le (by omega)] at h
      simp only [ok_bind] at h
      rw [show min (d.coff o + d.cs) d.shp - d.idx = d.cce o from rfl] at h
      have hadv1 : 1 ≤ adv ∨ (c = 0 ∧ adv = 0 ∧ S = 1) := by
        rcases hah with h1 | h1
        · exact .inr h1
        · exact .inl (by omega)
      rcases Nat.lt_or_ge (min d.cnt (d.cce o)) cur with hneg | hge
      · -- rows are taken back
        have hah' : 1 + (c - 1) * S ≤ adv := hah.resolve_left fun h => by omega
        obtain ⟨x, hx, hx0⟩ : ∃ x, cur = min d.cnt (d.cce o) + x ∧ 0 < x := ⟨cur - min d.cnt (d.cce o), by omega, by omega⟩
        have hxc : x ≤ c - 1 := by omega
        have hxS : x * S ≤ (c - 1) * S := Nat.mul_le_mul_right _ hxc
        have hxS1 : x * 1 ≤ x * S := Nat.mul_le_mul_left _ hS
        rw [hx, sub64_back (by omega) hx0 (by omega), ok_bind, mul64_back hx0 hS (by omega), ok_bind] at h
        rw [add64_release, ok_bind, add64_release, ok_bind, add64_release, ok_bind] at h
        rw [show (adv + (W - x * S)) % W = adv - x * S by
          rw [show adv + (W - x * S) = adv - x * S + W by omega, Nat.add_mod_right, Nat.mod_eq_of_lt (by omega)]] at h
        rw [show (soff + (W - x * S)) % W = soff - x * S by
          rw [show soff + (W - x * S) = soff - x * S + W by omega, Nat.add_mod_right,
            Nat.mod_eq_of_lt (by omega)]] at h
        rw [if_neg (by rintro ⟨-, h, -⟩; omega), debugAssert_release, ok_bind] at h
        obtain ⟨_, -, h⟩ := bind_eq_ok.1 h
        have := Outcome.ok.inj h
        subst this
        refine ⟨?_, ?_, ?_, ?_⟩ <;> simp only <;> omega
      · rw [sub64_of_le hge, ok_bind] at h
        have hle : (min d.cnt (d.cce o) - cur) * S ≤ d.cnt * S := Nat.mul_le_mul_right _ (by omega)
        rw [mul64_of_lt (by omega), ok_bind] at h
        generalize hdf : (min d.cnt (d.cce o) - cur) * S = diff at *
        have hc1le : c1 ≤ o + c := by
          have : 1 * c1 ≤ d.cnt * c1 := Nat.mul_le_mul_right _ hcnt
          omega
        have hdiv : min d.cnt (d.cce o) / d.cnt ≤ 1 := by
          have := Nat.div_le_div_right (c := d.cnt) (Nat.min_le_left d.cnt (d.cce o))
          rwa [Nat.div_self hcnt] at this
        rw [add64_of_lt (by omega), ok_bind, add64_of_lt (by omega), ok_bind, add64_of_lt (by omega), ok_bind] at h
        -- on the first dimension something is gained
        have hfirst : c = 0 → cur = o := by
          rintro rfl
          rw [← hcur, Nat.add_zero, Nat.mod_eq_of_lt ho]
        have hpos : 0 < adv + diff := by
          rcases hadv1 with h1 | ⟨h1, h2, h3⟩
          · omega
          · have := hfirst h1
            subst h3
            omega
        split at h
        · rename_i hgo
          obtain ⟨r, h2, h⟩ := bind_eq_ok.1 h
          have := Outcome.ok.inj h
          subst this
          have hmin : min d.cnt (d.cce o) = d.cnt := by omega
          rw [hmin, Nat.div_self hcnt] at h2
          cases R with
          | nil =>
            have := Outcome.ok.inj h2
            subst this
            refine ⟨?_, ?_, ?_, ?_⟩ <;> simp only <;> omega
          | cons e R =>
            -- the carry is paid for
            have hah2 : Ahead (c1 + 1) (adv + diff) (S * d.cs) := by
              refine .inr ?_
              rw [Nat.add_sub_cancel]
              have hzero : c = 0 → c1 = 0 := fun h0 => by
                rw [← hc1, h0, Nat.add_zero, Nat.div_eq_of_lt ho]
              rcases Nat.eq_zero_or_pos c with h0 | h0
              · rw [hzero h0, Nat.zero_mul]
                omega
              have hL := hL.resolve_right fun h => by omega
              have hcs : d.cs = d.cnt := by
                have := hL.head o ho
                omega
              rw [hcs]
              rw [hmin] at hdf
              have e1 : c1 * (S * d.cnt) = (d.cnt * c1) * S := by ring
              rw [e1]
              rcases Nat.eq_zero_or_pos c with h0 | h0
              · omega
              · rcases hah with ⟨h1, -, -⟩ | h1
                · omega
                · have : d.cnt * c1 ≤ (c - 1) + (d.cnt - cur) := by omega
                  have := Nat.mul_le_mul_right S this
                  rw [Nat.add_mul, hdf] at this
                  omega
            obtain ⟨i1, i2, i3, i4⟩ := ih hR (.inl hT) hS' r2 hgo.2.2 (by omega) hah2 (fun h => by omega) h2
            exact ⟨i1, by simp only; omega, i3, i4⟩
        · rw [debugAssert_release, ok_bind] at h
          obtain ⟨_, -, h⟩ := bind_eq_ok.1 h
          have := Outcome.ok.inj h
          subst this
          exact ⟨by simp only; omega, by simp only; omega, by simp only; omega, by simp only; omega⟩

/-- A call of `next` inside the selection gives an item in a release build. -/
theorem next_release {ds : Dataset} {L : List Dim} (h : Sel .release ds L) (hne : L ≠ []) {n q : Nat}
    (hn : n < tot L) : ∃ it s', (stateOff L n q).next .release ds = ok (some (it, s')) := by
  obtain ⟨c, hc, hoff, hget⟩ := h.chunkAt q
  have hprod : ds.chunkShape.prod = (L.map Dim.cs).prod := by rw [h.cs, List.prod_reverse]
  have hchunk := h.wf.fits.chunk
  have hbox := inBox_coords L h.dims q
  unfold Slicer.next
  have hns : ds.isScalar = false := by
    unfold Dataset.isScalar; rw [h.shp]
    cases L with
    | nil => exact absurd rfl hne
    | cons d L => simp
  rw [if_neg (by simp [stateOff]; omega), hns]
  simp only [Bool.false_eq_true, if_false]
  simp only [stateOff]
  rw [addAll_digits .release L h.dims q, ok_bind, hc, ok_bind]
  have hstart : chunkStartAux .release 0 (coords L q).reverse c.offset ds.chunkDimSz
      = ok (pos L q) := by
    rw [h.wf.fields.2.2.2.1, hoff, h.cs, chunkStartAux_ok .release _ _ _ _ hbox,
      pos_linear L h.dims q, Nat.zero_add]
    have := pos_lt L h.dims q
    rw [pos_linear L h.dims q]; omega
  rw [hstart]
  simp only [ok_bind]
  obtain ⟨w, hw⟩ := walk_release (tot L) 0 0 n (mkLanes (L.map Dim.idx).reverse (digits L q).reverse
      (L.map Dim.cnt).reverse c.offset ds.chunkShape ds.chunkDimSz ds.shape).reverse
  rw [hw, ok_bind, debugAssert_release, ok_bind, add64_release, ok_bind]
  exact ⟨_, _, rfl⟩

/-- The whole iteration ends, with nonempty slices, at most one for each element. -/
theorem trace_uncut {ds : Dataset} {L : List Dim} (h : Sel .release ds L) (hne : L ≠ []) (hL : WholeInner L.tail)
    (hroom : Room (tot L) 1 L) (hstop : tot L < 2 ^ 62) (hchunk : (L.map Dim.cs).prod < 2 ^ 62) (fuel n q : Nat)
    (hf : tot L - n < fuel) :
    ∃ items, Slicer.trace .release ds fuel (stateOff L n q) = ⟨items, ok ()⟩ ∧ items.length ≤ tot L - n ∧
      ∀ it ∈ items, it.start < it.stop := by
  have hW : W = 2 ^ 64 := by decide
  have h62 : (2 : Nat) ^ 62 = 4611686018427387904 := by decide
  have h64 : (2 : Nat) ^ 64 = 18446744073709551616 := by decide
  induction fuel generalizing n q with
  | zero => omega
  | succ fuel ih =>
    rcases Nat.lt_or_ge n (tot L) with hn | hn
    swap
    · have hx : (stateOff L n q).next .release ds = ok none := by
        unfold Slicer.next
        rw [if_pos (by simpa [stateOff] using hn)]
      simp only [Slicer.trace, hx]
      exact ⟨[], rfl, by simp, by simp⟩
    obtain ⟨it, s', hx⟩ := next_release h hne hn (q := q)
    obtain ⟨w, hoff, hst, hsp, hw, rfl⟩ := next_invR h hne hn hx
    obtain ⟨g1, g2, g3, g4⟩ := walk_uncut h.dims (.inr ⟨rfl, rfl, hL⟩) Nat.one_pos hroom hn (Nat.zero_le _) hstop
      (.inl ⟨rfl, rfl, rfl⟩) (fun _ => hne) hw
    have hp := pos_lt L h.dims q
    obtain ⟨q', hq', hoffs⟩ := digits_surj (walk_lt h.dims hw)
    have hs' : ({ stateOff L n q with offset := w.soff, coords := w.offs.reverse } : Slicer)
        = stateOff L w.soff q' := by
      simp only [stateOff, hoffs]
    rw [hs'] at hx
    obtain ⟨items, i1, i2, i3⟩ := ih w.soff q' (by omega)
    simp only [Slicer.trace, hx, i1]
    refine ⟨it :: items, rfl, by simp only [List.length_cons]; omega, ?_⟩
    intro it' hit
    rcases List.mem_cons.1 hit with rfl | hit
    · rw [hst, hsp, Nat.mod_eq_of_lt (by omega)]
      omega
    · exact i3 it' hit

end Hidefix.Proofs
