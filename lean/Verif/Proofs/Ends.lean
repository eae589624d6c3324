import Verif.Proofs.Uncut

/-!
# The loop of a release build never takes back unless the selection is one index wide in the last two dimensions

Carries into the main loop stay at most one, because a dimension in which the selection is exactly one chunk keeps its
offset at zero: the dimensions that the main loop may reach are reached by the second loop only with carry zero.
-/

set_option autoImplicit false

namespace Hidefix.Proofs
open Hidefix Hidefix.Spec Outcome

/-- The selection is exactly one (cut) chunk in this dimension. -/
def Ex (d : Dim) : Prop := d.idx % d.cs = 0 ∧ d.cnt = min d.cs (d.shp - d.idx)

/-- The selection meets a chunk of extent one (possibly cut to it) in this dimension. -/
def Slim (d : Dim) : Prop := ∃ o, o < d.cnt ∧ d.csz o = 1

/-- Offsets are zero in the dimensions of exactly one chunk, up to the first dimension where the loop always stops. -/
def Still : Nat → List Dim → List Nat → Prop
  | S, d :: R, o :: os =>
    (Ex d → o = 0 ∧ Still (S * d.cs) R os) ∧ (¬ Ex d → S ≠ 1 → Slim d → Still (S * d.cs) R os)
  | _, _, _ => True

/-- The innermost dimension is not one index that is one (cut) chunk. -/
def Ok1 : List Dim → Prop
  | [] => True
  | d :: _ => ¬ (Ex d ∧ d.cnt = 1)

/-- The innermost chunks are wide, or the selection is in one of the two innermost dimensions. -/
def Ok0 : List Dim → Prop
  | [] => True
  | d :: R => d.cs ≠ 1 ∨ d.cnt ≠ 1 ∨ Ok1 R

theorem ex_iff {d : Dim} (hd : DimOk d) {o : Nat} (ho : o < d.cnt) :
    Ex d ↔ d.idx = d.coff o ∧ d.cnt = d.cce o := by
  have h1 := hd.cs
  have h2 := hd.fit
  have hcnt := hd.cnt
  unfold Ex Dim.cce Dim.coff
  constructor
  · rintro ⟨e1, e2⟩
    obtain ⟨k, hk⟩ := Nat.dvd_of_mod_eq_zero e1
    have : (d.idx + o) / d.cs * d.cs = d.idx := by
      rw [hk, Nat.mul_add_div h1, Nat.div_eq_of_lt (by omega), Nat.add_zero, Nat.mul_comm]
    rw [this]
    exact ⟨rfl, by omega⟩
  · rintro ⟨e1, e2⟩
    rw [← e1] at e2
    refine ⟨by rw [e1]; exact Nat.mul_mod_left _ _, by omega⟩

theorem ex_csz {d : Dim} (hd : DimOk d) {o : Nat} (ho : o < d.cnt) (h : Ex d) : d.csz o = d.cnt := by
  obtain ⟨h1, h2⟩ := (ex_iff hd ho).1 h
  unfold Dim.csz
  unfold Dim.cce at h2
  omega

/-- Next to a chunk of extent one, a wider chunk ends before the selection does. -/
theorem slim_cce {d : Dim} (hd : DimOk d) {o : Nat} (ho : o < d.cnt) (hs : Slim d) (hne : d.csz o ≠ 1) :
    d.cce o < d.cnt := by
  obtain ⟨o', ho', h'⟩ := hs
  have h1 := hd.cs
  have h2 := hd.fit
  obtain ⟨f1, f2, f3, f4, f5, f6, f7⟩ := dim_facts hd ho
  obtain ⟨g1, g2, g3, g4, g5, g6, g7⟩ := dim_facts hd ho'
  have hcs : d.cs ≠ 1 := fun e => by omega
  have hlt : d.coff o < d.coff o' := by
    rcases Nat.lt_or_ge (d.coff o) (d.coff o') with h | h
    · exact h
    · exfalso
      omega
  have : d.coff o + d.cs ≤ d.coff o' := by
    unfold Dim.coff at hlt ⊢
    have := Nat.lt_of_mul_lt_mul_right hlt
    have := Nat.mul_le_mul_right d.cs (Nat.succ_le_of_lt this)
    rwa [Nat.succ_mul] at this
  omega

theorem carryRest_zero {L : List Dim} (hL : ∀ d ∈ L, DimOk d) {S m : Nat} {offs : List Nat}
    (h : carryRest .release 0 (lanesAt S L m) = ok offs) : offs = digits L m := by
  cases L with
  | nil => exact (Outcome.ok.inj h).symm
  | cons d R =>
    have hd := hL d (by simp)
    have ho : m % d.cnt < d.cnt := Nat.mod_lt _ hd.cnt
    obtain ⟨-, -, -, -, -, -, f7⟩ := dim_facts hd ho
    simp only [lanesAt, carryRest, Nat.add_zero] at h
    rw [add64_of_lt (by omega), ok_bind, Nat.add_zero, if_pos (Nat.div_eq_of_lt ho), Nat.mod_eq_of_lt ho,
      lanesAt_off] at h
    exact (Outcome.ok.inj h).symm

theorem walk_ends {stop c adv soff S m : Nat} {L : List Dim} (hok : ∀ d ∈ L, DimOk d) (hc : c ≤ 1)
    (hpre : S ≠ 1 ∨ (c = 0 ∧ Ok0 L) ∨ Ok1 L) (hst : Still S L (digits L m))
    (hS : 0 < S) (hroom : Room stop S L) (hs : soff < stop) (ha : adv ≤ soff) (hstop : stop < 2 ^ 62)
    (hadv : 0 < adv ∨ (c = 0 ∧ S = 1 ∧ L ≠ [])) {w : WalkOut}
    (h : walk .release stop c adv soff (lanesAt S L m) = ok w) :
    0 < w.adv ∧ w.soff + adv = soff + w.adv ∧ w.adv ≤ w.soff ∧ w.soff < 2 ^ 62 ∧
      (w.soff < stop → Still S L w.offs) := by
  induction L generalizing c adv soff S m w with
  | nil =>
    have := Outcome.ok.inj h
    subst this
    have : 0 < adv := hadv.resolve_right fun h => h.2.2 rfl
    exact ⟨by simp only; omega, by simp only, ha, Nat.lt_trans hs hstop, fun _ => trivial⟩
  | cons d R ih =>
    have hd := hok d (by simp)
    have hR := fun x hx => hok x (List.mem_cons_of_mem d hx)
    have hcnt := hd.cnt
    have ho : m % d.cnt < d.cnt := Nat.mod_lt _ hcnt
    obtain ⟨f1, f2, f3, f4, f5, f6, f7⟩ := dim_facts hd ho
    have hfit := hd.fit
    have hcs := hd.cs
    have hW : W = 2 ^ 64 := by decide
    have h62 : (2 : Nat) ^ 62 = 4611686018427387904 := by decide
    have h64 : (2 : Nat) ^ 64 = 18446744073709551616 := by decide
    obtain ⟨r1, r2⟩ := hroom
    have hS' : 0 < S * d.cs := Nat.mul_pos hS hd.cs
    have hS1 : S ≠ 1 → S * d.cs ≠ 1 := fun h1 h2 => h1 (Nat.eq_one_of_mul_eq_one_right h2)
    have hcS : d.cnt * 1 ≤ d.cnt * S := Nat.mul_le_mul_left _ hS
    simp only [digits, Still] at hst
    simp only [lanesAt, walk] at h
    rw [cutSize_lane hd ho] at h
    simp only [ok_bind] at h
    rw [add64_of_lt (by omega), ok_bind] at h
    have hex := ex_iff hd ho
    have hexc := ex_csz hd ho
    have hslim := slim_cce hd ho
    generalize hoff : m % d.cnt = o at *
    obtain ⟨st1, st2⟩ := hst
    -- the offset after the carry
    have hcases : (o + c < d.cnt ∧ (o + c) % d.cnt = o + c ∧ (o + c) / d.cnt = 0) ∨
        (o + c = d.cnt ∧ c = 1 ∧ (o + c) % d.cnt = 0 ∧ (o + c) / d.cnt = 1) := by
      rcases Nat.lt_or_ge (o + c) d.cnt with h1 | h1
      · exact .inl ⟨h1, Nat.mod_eq_of_lt h1, Nat.div_eq_of_lt h1⟩
      · have : o + c = d.cnt := by omega
        exact .inr ⟨this, by omega, by rw [this, Nat.mod_self], by rw [this, Nat.div_self hcnt]⟩
    generalize hcur : (o + c) % d.cnt = cur at *
    generalize hc1 : (o + c) / d.cnt = c1 at *
    split at h
    · -- skipped
      rename_i hsk
      obtain ⟨r, h2, h⟩ := bind_eq_ok.1 h
      have := Outcome.ok.inj h
      subst this
      have hadv' : 0 < adv := hadv.resolve_right fun h => hsk.2 h.2.1
      have hsl : Slim d := ⟨o, ho, hsk.1⟩
      have hstR : Still (S * d.cs) R (digits R (m / d.cnt)) := by
        by_cases hx : Ex d
        · exact (st1 hx).2
        · exact st2 hx hsk.2 hsl
      obtain ⟨i1, i2, i3, i4, i5⟩ := ih hR (by omega) (.inl (hS1 hsk.2)) hstR hS' r2 hs ha (.inl hadv') h2
      refine ⟨i1, i2, i3, i4, fun hlt => ?_⟩
      simp only [Still]
      refine ⟨fun hx => ⟨?_, i5 hlt⟩, fun _ _ _ => i5 hlt⟩
      have := hexc hx
      omega
    · rename_i hsk
      rw [debugAssert_release, ok_bind] at h
      rw [add64_of_lt (by omega)] at h
      simp only [ok_bind] at h
      rw [f4, sub64_of_le (by omega)] at h
      simp only [ok_bind] at h
      rw [show min (d.coff o + d.cs) d.shp - d.idx = d.cce o from rfl] at h
      have hge : cur ≤ min d.cnt (d.cce o) := by omega
      rw [sub64_of_le hge, ok_bind] at h
      have hle : (min d.cnt (d.cce o) - cur) * S ≤ d.cnt * S := Nat.mul_le_mul_right _ (by omega)
      rw [mul64_of_lt (by omega), ok_bind] at h
      generalize hdf : (min d.cnt (d.cce o) - cur) * S = diff at *
      have hdiv : min d.cnt (d.cce o) / d.cnt ≤ 1 := by
        have := Nat.div_le_div_right (c := d.cnt) (Nat.min_le_left d.cnt (d.cce o))
        rwa [Nat.div_self hcnt] at this
      rw [add64_of_lt (by omega), ok_bind, add64_of_lt (by omega), ok_bind, add64_of_lt (by omega), ok_bind] at h
      have hpos : 0 < adv + diff := by
        rcases hadv with h1 | ⟨h1, h2, -⟩
        · omega
        · subst h2
          omega
      split at h
      · -- on to the next dimension
        rename_i hgo
        obtain ⟨r, h2, h⟩ := bind_eq_ok.1 h
        have := Outcome.ok.inj h
        subst this
        have hx : Ex d := hex.2 ⟨hgo.1, hgo.2.1⟩
        have hcz := hexc hx
        obtain ⟨ho0, hstR⟩ := st1 hx
        have hmin : min d.cnt (d.cce o) = d.cnt := by omega
        rw [hmin, Nat.div_self hcnt] at h2
        have hc10 : c1 = 0 := by
          rcases hcases with h1 | ⟨h1, h3, -⟩
          · exact h1.2.2
          · exfalso
            have hone : d.cnt = 1 := by omega
            rcases hpre with hp | ⟨hp, -⟩ | hp
            · exact hsk ⟨by omega, hp⟩
            · omega
            · exact hp ⟨hx, hone⟩
        have hpre' : S * d.cs ≠ 1 ∨ (c1 + 1 = 0 ∧ Ok0 R) ∨ Ok1 R := by
          rcases hpre with hp | ⟨hp, hp'⟩ | hp
          · exact .inl (hS1 hp)
          · rcases hp' with h1 | h1 | h1
            · exact .inl fun e => h1 (Nat.eq_one_of_mul_eq_one_left e)
            · refine .inl fun e => ?_
              have := Nat.eq_one_of_mul_eq_one_left e
              have := hx.2
              omega
            · exact .inr (.inr h1)
          · refine .inl fun e => ?_
            have := Nat.eq_one_of_mul_eq_one_left e
            exact hp ⟨hx, by have := hx.2; omega⟩
        obtain ⟨i1, i2, i3, i4, i5⟩ := ih hR (by omega) hpre' hstR hS' r2 hgo.2.2 (by omega) (.inl hpos) h2
        refine ⟨i1, by simp only; omega, i3, i4, fun hlt => ?_⟩
        simp only [Still]
        refine ⟨fun _ => ⟨by rw [hmin, Nat.mod_self], i5 hlt⟩, fun hn => absurd hx hn⟩
      · -- the end
        rename_i hgo
        rw [debugAssert_release, ok_bind] at h
        obtain ⟨rest, hrest, h⟩ := bind_eq_ok.1 h
        have := Outcome.ok.inj h
        subst this
        refine ⟨by simp only; omega, by simp only; omega, by simp only; omega, by simp only; omega, fun hlt => ?_⟩
        simp only at hlt
        have hx : ¬ Ex d := fun hx => hgo ⟨(hex.1 hx).1, (hex.1 hx).2, hlt⟩
        simp only [Still]
        refine ⟨fun h => absurd h hx, fun _ hS2 hsl => ?_⟩
        have hc := hslim hsl fun h => hsk ⟨h, hS2⟩
        have h0 : c1 = 0 := by omega
        rw [h0, Nat.div_eq_of_lt (by omega), Nat.add_zero] at hrest
        rw [carryRest_zero hR hrest]
        exact st2 hx hS2 hsl

/-- At the start all offsets are zero. -/
theorem still_zero (S : Nat) (L : List Dim) : Still S L (digits L 0) := by
  induction L generalizing S with
  | nil => trivial
  | cons d R ih =>
    simp only [digits, Still, Nat.zero_mod, Nat.zero_div]
    exact ⟨fun _ => ⟨trivial, ih _⟩, fun _ _ _ => ih _⟩

/-- The whole iteration ends, with nonempty slices, at most one for each element. -/
theorem trace_ends {ds : Dataset} {L : List Dim} (h : Sel .release ds L) (hne : L ≠ []) (hL : Ok0 L)
    (hroom : Room (tot L) 1 L) (hstop : tot L < 2 ^ 62) (hchunk : (L.map Dim.cs).prod < 2 ^ 62) (fuel n q : Nat)
    (hst : n < tot L → Still 1 L (digits L q)) (hf : tot L - n < fuel) :
    ∃ items, Slicer.trace .release ds fuel (stateOff L n q) = ⟨items, ok ()⟩ ∧ items.length ≤ tot L - n ∧
      (∀ it ∈ items, it.start < it.stop ∧ it.stop < 2 ^ 63) ∧ tot L - n ≤ total items := by
  have h63 : (2 : Nat) ^ 63 = 9223372036854775808 := by decide
  have hW : W = 2 ^ 64 := by decide
  have h62 : (2 : Nat) ^ 62 = 4611686018427387904 := by decide
  have h64 : (2 : Nat) ^ 64 = 18446744073709551616 := by decide
  induction fuel generalizing n q with
  | zero => omega
  | succ fuel ih =>
    rcases Nat.lt_or_ge n (tot L) with hn | hn
    swap
    · have hx : (stateOff L n q).next .release ds = ok none := by
        unfold Slicer.next
        rw [if_pos (by simpa [stateOff] using hn)]
      simp only [Slicer.trace, hx]
      exact ⟨[], rfl, by simp, by simp, by omega⟩
    obtain ⟨it, s', hx⟩ := next_release h hne hn (q := q)
    obtain ⟨w, hoff, hst', hsp, hw, rfl⟩ := next_invR h hne hn hx
    obtain ⟨g1, g2, g3, g4, g5⟩ := walk_ends h.dims (Nat.zero_le _) (.inr (.inl ⟨rfl, hL⟩)) (hst hn) Nat.one_pos hroom
      hn (Nat.zero_le _) hstop (.inr ⟨rfl, rfl, hne⟩) hw
    have hp := pos_lt L h.dims q
    obtain ⟨q', hq', hoffs⟩ := digits_surj (walk_lt h.dims hw)
    have hs' : ({ stateOff L n q with offset := w.soff, coords := w.offs.reverse } : Slicer)
        = stateOff L w.soff q' := by
      simp only [stateOff, hoffs]
    rw [hs'] at hx
    rw [hoffs] at g5
    obtain ⟨items, i1, i2, i3, i4⟩ := ih w.soff q' g5 (by omega)
    simp only [Slicer.trace, hx, i1]
    rw [Nat.mod_eq_of_lt (by omega)] at hsp
    refine ⟨it :: items, rfl, by simp only [List.length_cons]; omega, ?_, ?_⟩
    · intro it' hit
      rcases List.mem_cons.1 hit with rfl | hit
      · rw [hst', hsp]
        omega
      · exact i3 it' hit
    · rw [total_cons, hst', hsp]
      omega

end Hidefix.Proofs
