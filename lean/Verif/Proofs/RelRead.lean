import Verif.Proofs.Wrapped
import Verif.Proofs.RelSlices
import Verif.Proofs.ExactRead

/-!
# The ranges of a release build are in range, or far out of it
-/

set_option autoImplicit false

namespace Hidefix.Proofs
open Hidefix Hidefix.Spec Outcome

/-- `Room` with another limit. -/
def RoomB (B stop : Nat) : Nat → List Dim → Prop
  | _, [] => True
  | S, d :: R => stop + d.cnt * S < B ∧ RoomB B stop (S * d.cs) R

/-- The loop of a release build ends at a small offset, or one that is a small number below zero. -/
theorem rwalk_room {B stop c adv soff S m : Nat} {L : List Dim} (hL : ∀ d ∈ L, DimOk d)
    (hB : B ≤ 2 ^ 62) (hS : 0 < S) (hroom : RoomB B stop S L) (hs : soff < B) (hs' : soff < stop)
    {w : WalkOut} (h : walk .release stop c adv soff (lanesAt S L m) = ok w) :
    w.soff < B ∨ W < w.soff + B := by
  have hW : W = 2 ^ 64 := by decide
  have h62 : (2 : Nat) ^ 62 = 4611686018427387904 := by decide
  have h64 : (2 : Nat) ^ 64 = 18446744073709551616 := by decide
  induction L generalizing c adv soff S m w with
  | nil =>
    have := Outcome.ok.inj h
    subst this
    exact .inl hs
  | cons d R ih =>
    have hd := hL d (by simp)
    have hR : ∀ x ∈ R, DimOk x := fun x hx => hL x (by simp [hx])
    have ho : m % d.cnt < d.cnt := Nat.mod_lt _ hd.cnt
    obtain ⟨f1, f2, f3, f4, f5, f6, f7⟩ := dim_facts hd ho
    have hfit := hd.fit
    have hcnt := hd.cnt
    have hr1 := hroom.1
    have hSc : 0 < S * d.cs := Nat.mul_pos hS hd.cs
    have hcS : d.cnt ≤ d.cnt * S := Nat.le_mul_of_pos_right _ hS
    simp only [lanesAt, walk] at h
    rw [cutSize_lane hd ho] at h
    simp only [ok_bind] at h
    obtain ⟨o, -, h⟩ := bind_eq_ok.1 h
    generalize hcur : o % d.cnt = cur at h
    generalize hc1 : o / d.cnt = c1 at h
    have hcurlt : cur < d.cnt := by rw [← hcur]; exact Nat.mod_lt _ hcnt
    split at h
    · obtain ⟨r, h2, h⟩ := bind_eq_ok.1 h
      have := Outcome.ok.inj h
      subst this
      have hh := ih hR hSc hroom.2 hs hs' h2
      exact hh
    · rw [debugAssert_release, ok_bind] at h
      rw [add64_of_lt (by omega)] at h
      simp only [ok_bind] at h
      rw [f4, sub64_of_le (by omega)] at h
      simp only [ok_bind] at h
      rw [show min (d.coff (m % d.cnt) + d.cs) d.shp - d.idx = d.cce (m % d.cnt) from rfl] at h
      generalize ho2 : min d.cnt (d.cce (m % d.cnt)) = o2 at h
      have ho2le : o2 ≤ d.cnt := by omega
      -- the new offset
      have hnew : ∀ k : Nat → Nat → Outcome WalkOut, (do
            let x ← sub64 .release o2 cur
            let diff ← mul64 .release x S
            let adv' ← add64 .release adv diff
            let soff' ← add64 .release soff diff
            k adv' soff') = ok w → ∃ adv' soff', k adv' soff' = ok w ∧
              (soff' < B ∨ W < soff' + B) := by
        intro k h
        rcases Nat.lt_or_ge o2 cur with hlt | hge
        · obtain ⟨x, rfl⟩ : ∃ x, cur = o2 + x := ⟨cur - o2, by omega⟩
          have hx0 : 0 < x := by omega
          have hxS : x * S ≤ d.cnt * S := Nat.mul_le_mul_right _ (by omega)
          have hxS0 : 0 < x * S := Nat.mul_pos hx0 hS
          rw [sub64_back (by omega) hx0 (by omega)] at h
          simp only [ok_bind] at h
          rw [mul64_back hx0 hS (by omega)] at h
          simp only [ok_bind] at h
          obtain ⟨adv', -, h⟩ := bind_eq_ok.1 h
          rcases Nat.lt_or_ge soff (x * S) with h1 | h1
          · rw [add64_of_lt (by omega), ok_bind] at h
            exact ⟨_, _, h, .inr (by omega)⟩
          · rw [add64_back hxS0 h1 (by omega), ok_bind] at h
            exact ⟨_, _, h, .inl (by omega)⟩
        · have hle : (o2 - cur) * S ≤ d.cnt * S := Nat.mul_le_mul_right _ (by omega)
          rw [sub64_of_le hge] at h
          simp only [ok_bind] at h
          rw [mul64_of_lt (by omega)] at h
          simp only [ok_bind] at h
          obtain ⟨adv', -, h⟩ := bind_eq_ok.1 h
          rw [add64_of_lt (by omega), ok_bind] at h
          exact ⟨_, _, h, .inl (by omega)⟩
      obtain ⟨adv', soff', h, hso⟩ := hnew _ h
      obtain ⟨c2, -, h⟩ := bind_eq_ok.1 h
      split at h
      · rename_i hcont
        obtain ⟨r, h7, h⟩ := bind_eq_ok.1 h
        have := Outcome.ok.inj h
        subst this
        have hh := ih hR hSc hroom.2 (by omega) hcont.2.2 h7
        exact hh
      · rw [debugAssert_release, ok_bind] at h
        obtain ⟨rest, -, h⟩ := bind_eq_ok.1 h
        have := Outcome.ok.inj h
        subst this
        exact hso

/-- A range of a release build that is not empty is short, or ends a little below `2^64`. -/
theorem trace_room {ds : Dataset} {L : List Dim} (h : Sel .release ds L) (hne : L ≠ []) {B : Nat}
    (hB : B ≤ 2 ^ 62) (hroom : RoomB B (tot L) 1 L) (htot : tot L < B) (fuel n q : Nat)
    {items : List Item}
    (ht : Slicer.trace .release ds fuel (stateOff L n q) = ⟨items, ok ()⟩) :
    ∀ it ∈ items, it.start < ds.chunkShape.prod ∧ (it.start < it.stop →
      it.stop < it.start + B ∨ W + it.start < it.stop + 2 * B ∧ it.stop < W) := by
  have hW : W = 2 ^ 64 := by decide
  have h62 : (2 : Nat) ^ 62 = 4611686018427387904 := by decide
  have h64 : (2 : Nat) ^ 64 = 18446744073709551616 := by decide
  have hprod : ds.chunkShape.prod = (L.map Dim.cs).prod := by rw [h.cs, List.prod_reverse]
  induction fuel generalizing n q items with
  | zero => simp [Slicer.trace] at ht
  | succ fuel ih =>
    simp only [Slicer.trace] at ht
    rcases Nat.lt_or_ge n (tot L) with hn | hn
    swap
    · have : (stateOff L n q).next .release ds = ok none := by
        unfold Slicer.next
        rw [if_pos (by simpa [stateOff] using hn)]
      rw [this] at ht
      simp only [Trace.mk.injEq, and_true] at ht
      subst ht
      simp
    match hx : (stateOff L n q).next .release ds with
    | err e => rw [hx] at ht; simp at ht
    | .panic f => rw [hx] at ht; simp at ht
    | ub => rw [hx] at ht; simp at ht
    | diverge => rw [hx] at ht; simp at ht
    | ok none =>
      rw [hx] at ht
      simp only [Trace.mk.injEq, and_true] at ht
      subst ht
      simp
    | ok (some (it, s')) =>
      rw [hx] at ht
      simp only [Trace.mk.injEq] at ht
      obtain ⟨rfl, hend⟩ := ht
      obtain ⟨w, hoff, hst, hsp, hw, rfl⟩ := next_invR h hne hn hx
      obtain ⟨hmod, hadvW, hsoffW⟩ := rwalk_mod hw W_pos (by omega)
      have hsm := rwalk_room h.dims hB Nat.one_pos hroom (by omega) hn hw
      obtain ⟨q', hq', hoffs⟩ := digits_surj (walk_lt h.dims hw)
      have hs' : ({ stateOff L n q with offset := w.soff, coords := w.offs.reverse } : Slicer)
          = stateOff L w.soff q' := by
        simp only [stateOff, hoffs]
      rw [hs'] at hend ⊢
      have hend' : Slicer.trace .release ds fuel (stateOff L w.soff q')
          = ⟨(Slicer.trace .release ds fuel (stateOff L w.soff q')).items, ok ()⟩ := by
        rw [← hend]
      have hrec := ih w.soff q' hend'
      intro x hxm
      rcases List.mem_cons.1 hxm with rfl | hxm
      · have hpos : x.start < ds.chunkShape.prod := by
          rw [hst, hprod]; exact pos_lt L h.dims q
        refine ⟨hpos, fun hlt => ?_⟩
        rw [← hst] at hsp
        have hcW : ds.chunkShape.prod < W := h.wf.fits.chunk
        have hstW : x.stop < W := by rw [hsp]; exact Nat.mod_lt _ W_pos
        have hspn : x.stop = x.start + w.adv := by
          rcases Nat.lt_or_ge (x.start + w.adv) W with h1 | h1
          · rw [hsp, Nat.mod_eq_of_lt h1]
          · exfalso
            rw [hsp, show x.start + w.adv = (x.start + w.adv - W) + W by omega,
              Nat.add_mod_right, Nat.mod_eq_of_lt (by omega)] at hlt
            omega
        rw [Nat.zero_add, Nat.mod_eq_of_lt hsoffW] at hmod
        have hadv : w.adv + n = w.soff ∨ w.adv + n = w.soff + W := by
          rcases Nat.lt_or_ge (w.adv + n) W with h1 | h1
          · rw [Nat.mod_eq_of_lt h1] at hmod; exact .inl hmod
          · rw [show w.adv + n = (w.adv + n - W) + W by omega, Nat.add_mod_right,
              Nat.mod_eq_of_lt (by omega)] at hmod
            right; omega
        omega
      · exact hrec x hxm

theorem roomB_of {L : List Dim} (hL : ∀ d ∈ L, DimOk d) {stop S B C : Nat}
    (hC : S * (L.map Dim.cs).prod ≤ C) (h : ∀ d ∈ L, stop + d.shp * C < B) : RoomB B stop S L := by
  induction L generalizing S with
  | nil => trivial
  | cons d R ih =>
    have hR : ∀ x ∈ R, DimOk x := fun x hx => hL x (by simp [hx])
    have hd := hL d (by simp)
    refine ⟨?_, ih hR ?_ fun x hx => h x (by simp [hx])⟩
    · have h1 := h d (by simp)
      have h2 : 0 < ((d :: R).map Dim.cs).prod := by
        apply prod_pos
        intro c hc
        obtain ⟨x, hx, rfl⟩ := List.mem_map.1 hc
        exact (hL x hx).cs
      have h3 : d.cnt * S ≤ d.shp * C := by
        apply Nat.mul_le_mul
        · have := hd.fit; omega
        · exact Nat.le_trans (Nat.le_mul_of_pos_right _ h2) hC
      omega
    · rw [List.map_cons, List.prod_cons, ← Nat.mul_assoc] at hC
      exact hC

/-- The ranges of a release build over a selection, without empty ones. -/
theorem slices_room {ds : Dataset} {ext : Extents} {start count : List Nat} {B : Nat}
    (hwf : WF .release ds) (hsel : Selects ext ds.shape start count)
    (hb : InBounds start count ds.shape) (hshape : ds.shape ≠ []) (hB : B ≤ 2 ^ 62)
    (hroom : ∀ n ∈ ds.shape, count.prod + n * ds.chunkShape.prod < B) {items : List Item}
    (hx : ds.chunkSlices .release ext = ok ⟨items, ok ()⟩) :
    ∀ it ∈ items, it.start < ds.chunkShape.prod ∧ (it.start < it.stop →
      it.stop < it.start + B ∨ W + it.start < it.stop + 2 * B ∧ it.stop < W) := by
  unfold Dataset.chunkSlices at hx
  rw [chunkSlicer_ok hwf hsel hb, ok_bind] at hx
  obtain ⟨hS, e1, e2⟩ := sel_of hwf hb
  generalize hL : dimsOf start count ds.chunkShape ds.shape = L at *
  have hne : L ≠ [] := by
    rintro rfl
    apply hshape
    rw [hS.shp]; rfl
  have htot : count.prod = tot L := by
    rw [e2, List.prod_reverse]; rfl
  have hst : (⟨0, ds.shape.map (fun _ => 0), start, count, count.prod⟩ : Slicer)
      = stateOff L 0 0 := by
    unfold stateOff
    rw [htot, ← e1, ← e2]
    congr 1
    rw [hS.shp]
    clear * -
    induction L with
    | nil => rfl
    | cons d L ih =>
      simp only [List.map_cons, List.reverse_cons, List.map_append, List.map_nil, digits,
        Nat.zero_mod, Nat.zero_div, ih]
  rw [hst] at hx
  have hx := Outcome.ok.inj hx
  have hR : RoomB B (tot L) 1 L := by
    refine roomB_of hS.dims (C := ds.chunkShape.prod) ?_ fun d hd => ?_
    · rw [hS.cs, List.prod_reverse, Nat.one_mul]
    · rw [← htot]
      apply hroom
      rw [hS.shp, List.mem_reverse]
      exact List.mem_map_of_mem hd
  have hlt : tot L < B := by
    obtain ⟨n, hn⟩ := List.exists_mem_of_ne_nil _ hshape
    have := hroom n hn
    omega
  exact trace_room hS hne hB hR hlt _ 0 0 hx

/-- If all copies of elements of `d` bytes are in range then nothing has wrapped. -/
theorem fine_normal_of {ds : Dataset} {ext : Extents} {start count : List Nat} {csz d : Nat}
    {D : Chunk → Outcome (List Byte)}
    (hwf : WF .release ds) (hsel : Selects ext ds.shape start count)
    (hb : InBounds start count ds.shape) (hshape : ds.shape ≠ [])
    (hroom : ∀ n ∈ ds.shape, count.prod + n * ds.chunkShape.prod < 2 ^ 57) {items : List Item}
    (hx : ds.chunkSlices .release ext = ok ⟨items, ok ()⟩)
    (h0 : 0 < d) (hd : d < 16) (hcz : ds.chunkShape.prod * d < 2 ^ 63) (hsz : csz < 2 ^ 63)
    (hD : ∀ c ∈ ds.chunks, ∀ v, D c = ok v → v.length ≤ csz) 
    (hf : ∀ it ∈ items.map (normI d), it.start ≤ it.stop ∧ Ready D 1 it.chunk it.stop) :
    ∀ it ∈ items, it.start ≤ it.stop ∧ Ready D d it.chunk it.stop ∧ bytesN D d it = bytesOf D d it := by
  intro it hit
  have hW : W = 18446744073709551616 := by decide
  have h57 : (2 : Nat) ^ 57 = 144115188075855872 := by decide
  have h63 : (2 : Nat) ^ 63 = 9223372036854775808 := by decide
  obtain ⟨h1, h2⟩ := slices_room hwf hsel hb hshape (B := 2 ^ 57) (by decide) hroom hx it hit
  obtain ⟨hord, v, hv, hvl⟩ := hf (normI d it) (List.mem_map_of_mem hit)
  have hvc := hD it.chunk (chunkSlices_mem hx it hit) v hv
  simp only [normI, Nat.mul_one] at hvl hord
  have hst : it.start * d < 2 ^ 63 :=
    Nat.lt_of_le_of_lt (Nat.mul_le_mul_right _ (Nat.le_of_lt h1)) hcz
  have hsp : it.stop * d < W := by
    rcases Nat.lt_or_ge it.start it.stop with hlt | hge
    swap
    · have := Nat.mul_le_mul_right d hge
      omega
    rcases h2 hlt with h | h
    · have := Nat.mul_le_mul_right d (Nat.le_of_lt h)
      rw [Nat.add_mul] at this
      have h4 : 2 ^ 57 * d ≤ 2 ^ 57 * 16 := Nat.mul_le_mul_left _ (by omega)
      omega
    · exfalso
      -- `it.stop = W - b`, with `b` small
      have hspW := h.2
      obtain ⟨b, hb1⟩ : ∃ b, it.stop + b = W := ⟨W - it.stop, by omega⟩
      have hbd : b * d < 2 ^ 58 * 16 :=
        Nat.lt_of_le_of_lt (Nat.mul_le_mul_left _ (Nat.le_of_lt hd))
          (Nat.mul_lt_mul_of_pos_right (by omega) (by decide))
      have hb0 : 0 < b * d := Nat.mul_pos (by omega) h0
      have e : it.stop * d = (W - b * d) + W * (d - 1) := by
        have e1 : it.stop * d + b * d = W * d := by rw [← Nat.add_mul, hb1]
        obtain ⟨k, hk⟩ : ∃ k, d = k + 1 := ⟨d - 1, by omega⟩
        rw [hk] at e1 hbd ⊢
        rw [Nat.add_sub_cancel]
        rw [Nat.mul_add W k 1] at e1
        omega
      rw [e, Nat.add_mul_mod_self_left, Nat.mod_eq_of_lt (by omega)] at hvl
      omega
  refine ⟨?_, ⟨v, hv, ?_⟩, ?_⟩
  · rw [Nat.mod_eq_of_lt hsp, Nat.mod_eq_of_lt (by omega)] at hord
    exact Nat.le_of_mul_le_mul_right hord h0
  · rwa [Nat.mod_eq_of_lt hsp] at hvl
  · unfold bytesN bytesOf normI part
    simp only [Nat.mul_one]
    rw [Nat.mod_eq_of_lt hsp, Nat.mod_eq_of_lt (by omega), Nat.sub_mul]

/-- The same for elements. -/
theorem fine_normal {ds : Dataset} {ext : Extents} {start count : List Nat} {csz n : Nat}
    {D : Chunk → Outcome (List Byte)}
    (hwf : WF .release ds) (hsel : Selects ext ds.shape start count)
    (hb : InBounds start count ds.shape) (hshape : ds.shape ≠ [])
    (hroom : ∀ n ∈ ds.shape, count.prod + n * ds.chunkShape.prod < 2 ^ 57) {items : List Item}
    (hx : ds.chunkSlices .release ext = ok ⟨items, ok ()⟩)
    (h0 : 0 < ds.dsize) (hd : ds.dsize < 16) (hcz : ds.chunkShape.prod * ds.dsize < 2 ^ 63) (hsz : csz < 2 ^ 63)
    (hD : ∀ c ∈ ds.chunks, ∀ v, D c = ok v → v.length ≤ csz) (hf : FineAll D ds.dsize n items) :
    ∀ it ∈ items, it.start ≤ it.stop ∧ Ready D ds.dsize it.chunk it.stop ∧
      bytesN D ds.dsize it = bytesOf D ds.dsize it :=
  fine_normal_of hwf hsel hb hshape hroom hx h0 hd hcz hsz hD hf.1

end Hidefix.Proofs
