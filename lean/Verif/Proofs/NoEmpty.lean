import Verif.Proofs.Chain
import Verif.Proofs.RelSlices

/-!
# A right enumeration of a release build, empty ranges allowed
-/

set_option autoImplicit false

namespace Hidefix.Proofs
open Hidefix Hidefix.Spec Outcome Relation

/-- What the calls of a right enumeration do from row `n` with the coordinates of row `q` on: each gains nothing, or
is at its row and gains a run. -/
inductive Right (L : List Dim) : Nat → Nat → Prop
  | done (q : Nat) : Right L (tot L) q
  | idle (n q q' : Nat) (w : WalkOut) : n < tot L → q < tot L → q' < tot L →
      walk .release (tot L) 0 0 n (lanesAt 1 L q) = ok w → w.soff = n → w.offs = digits L q' →
      Right L n q' → Right L n q
  | go (n a q' : Nat) (w : WalkOut) : n + a ≤ tot L → 0 < a → q' < tot L →
      walk .release (tot L) 0 0 n (lanesAt 1 L n) = ok w → w.soff = n + a → w.offs = digits L q' →
      Run L n a → Right L (n + a) q' → Right L n n

/-- A right iteration whose ranges do not end before they start is a sequence of such calls. -/
theorem right_of_trace {ds : Dataset} {L : List Dim} (h : Sel .release ds L) (hne : L ≠ [])
    (fuel n q : Nat) (hq : q < tot L) (hnt : n ≤ tot L) {items : List Item}
    (ht : Slicer.trace .release ds fuel (stateOff L n q) = ⟨items, ok ()⟩)
    (hpos : ∀ it ∈ items, it.start ≤ it.stop)
    (hfor : List.Forall₂ (fun m (ck : Chunk × Nat) => StoredAt ds (coords L m).reverse ck.1 ck.2)
      (List.range' n (tot L - n)) (expand items)) : Right L n q := by
  have htotW : tot L < W := Nat.lt_of_le_of_lt h.tot_le h.wf.fits.elems
  induction fuel generalizing n q items with
  | zero => simp [Slicer.trace] at ht
  | succ fuel ih =>
    rcases Nat.lt_or_ge n (tot L) with hn | hn
    swap
    · rw [show n = tot L by omega]; exact .done q
    simp only [Slicer.trace] at ht
    match hx : (stateOff L n q).next .release ds with
    | err e => rw [hx] at ht; simp at ht
    | .panic f => rw [hx] at ht; simp at ht
    | ub => rw [hx] at ht; simp at ht
    | diverge => rw [hx] at ht; simp at ht
    | ok none =>
      exfalso
      rw [hx] at ht
      simp only [Trace.mk.injEq, and_true] at ht
      subst ht
      simp only [expand, List.flatMap_nil, List.forall₂_nil_right_iff, List.range'_eq_nil_iff] at hfor
      omega
    | ok (some (it, s')) =>
      rw [hx] at ht
      simp only [Trace.mk.injEq] at ht
      obtain ⟨rfl, hend⟩ := ht
      obtain ⟨w, hoff, hst, hsp, hw, rfl⟩ := next_invR h hne hn hx
      obtain ⟨hmod, hadvW, hsoffW⟩ := rwalk_mod hw (W_pos) (by omega)
      have hit := hpos it (by simp)
      have hpW : pos L q < W := by
        rw [← hst]
        have : it.stop < W := by rw [hsp]; exact Nat.mod_lt _ W_pos
        omega
      have hspn : it.stop = pos L q + w.adv := by
        rcases Nat.lt_or_ge (pos L q + w.adv) W with hlt | hge
        · rw [hsp, Nat.mod_eq_of_lt hlt]
        · exfalso
          rw [hst, hsp, show pos L q + w.adv = (pos L q + w.adv - W) + W by omega,
            Nat.add_mod_right, Nat.mod_eq_of_lt (by omega)] at hit
          omega
      obtain ⟨q', hq', hoffs⟩ := digits_surj (walk_lt h.dims hw)
      have hlen : w.adv ≤ tot L - n := by
        have := hfor.length_eq
        simp only [expand, List.flatMap_cons, List.length_range', List.length_append,
          List.length_map, hst, hspn] at this
        omega
      have hsoff : w.soff = n + w.adv := by
        rw [Nat.zero_add, Nat.mod_eq_of_lt hsoffW, Nat.mod_eq_of_lt (by omega)] at hmod
        omega
      have hs' : ({ stateOff L n q with offset := w.soff, coords := w.offs.reverse } : Slicer)
          = stateOff L (n + w.adv) q' := by
        simp only [stateOff, hoffs, hsoff]
      rw [hs'] at hend hfor hpos
      have hsplit : List.range' n (tot L - n)
          = List.range' n w.adv ++ List.range' (n + w.adv) (tot L - (n + w.adv)) := by
        rw [List.range'_append_1]; congr 1; omega
      rw [hsplit] at hfor
      simp only [expand, List.flatMap_cons] at hfor
      rw [hst, hspn, Nat.add_sub_cancel_left] at hfor
      have hlen2 : ((List.range' (pos L q) w.adv).map fun k => (it.chunk, k)).length = w.adv := by
        simp
      have hhead := List.forall₂_take_append _ _ _ hfor
      have htail := List.forall₂_drop_append _ _ _ hfor
      rw [hlen2] at hhead htail
      rw [List.take_left' (by simp)] at hhead
      rw [List.drop_left' (by simp)] at htail
      rw [List.forall₂_map_right_iff, List.forall₂_iff_get] at hhead
      have hel : ∀ i, i < w.adv → StoredAt ds (coords L (n + i)).reverse it.chunk (pos L q + i) := by
        intro i hi
        have := hhead.2 i (by simpa using hi) (by simpa using hi)
        simpa using this
      have hst' : ∀ i, i < w.adv → cell L (n + i) = cell L q ∧ pos L q + i = pos L (n + i) :=
        fun i hi => stored_inv h hoff (hel i hi)
      have hend' : Slicer.trace .release ds fuel (stateOff L (n + w.adv) q')
          = ⟨(Slicer.trace .release ds fuel (stateOff L (n + w.adv) q')).items, ok ()⟩ := by
        rw [← hend]
      have hR := ih (n + w.adv) q' hq' (by omega) hend' (fun it hit => hpos it (by simp [hit])) htail
      rcases Nat.eq_zero_or_pos w.adv with h0 | ha
      · rw [h0, Nat.add_zero] at hR hsoff
        exact .idle n q q' w hn hq hq' hw hsoff hoffs hR
      · have hqn : q = n := by
          have := hst' 0 ha
          exact place_inj h.dims hq hn (by simpa using this.1.symm) (by simpa using this.2)
        subst hqn
        exact .go q w.adv q' w (by omega) ha hq' hw hsoff hoffs
          (fun i hi => ⟨(hst' i hi).1, (hst' i hi).2.symm⟩) hR

/-- Calls that gain nothing lead to the coordinates of the row, where a run is gained. -/
theorem right_go {L : List Dim} {n q : Nat} (h : Right L n q) (hn : n < tot L) :
    ReflTransGen (Idle (tot L) 0 1 1 L n) q n ∧ ∃ a q' w, n + a ≤ tot L ∧ 0 < a ∧ q' < tot L ∧
      walk .release (tot L) 0 0 n (lanesAt 1 L n) = ok w ∧ w.soff = n + a ∧ w.offs = digits L q' ∧
      Run L n a ∧ Right L (n + a) q' := by
  induction h with
  | done q => exact absurd hn (Nat.lt_irrefl _)
  | idle n q q' w h1 h2 h3 h4 h5 h6 _ ih =>
    obtain ⟨i1, i2⟩ := ih hn
    refine ⟨.head ⟨by omega, h2, h3, 0, w, ?_, by omega, h6⟩ i1, i2⟩
    rw [Nat.one_mul, Nat.add_zero]; exact h4
  | go n a q' w h1 h2 h3 h4 h5 h6 h7 h8 _ => exact ⟨.refl, a, q', w, h1, h2, h3, h4, h5, h6, h7, h8⟩

theorem right_next {L : List Dim} (hL : ∀ d ∈ L, DimOk d) (hroom : Room (tot L) 1 L) {n0 q0 : Nat}
    (h0 : Go (tot L) 0 1 1 L 0 n0 q0) (hch0 : ReflTransGen (Idle (tot L) 0 1 1 L n0) q0 n0) (k : Nat)
    {n q : Nat} (hk : tot L - n = k) (hn : n < tot L) (hat : At (tot L) 1 L n) (h : Right L n q) :
    ∀ m, n ≤ m → m < tot L → (m = n ∨ ¬ Run L (m - 1) 2) → StepOkR L m := by
  induction k using Nat.strong_induction_on generalizing n q with
  | _ k ih =>
    obtain ⟨-, a, q', w, h1, h2, h3, h4, h5, h6, h7, h8⟩ := right_go h hn
    have key : n + a < tot L → q' = n + a ∧ At (tot L) 1 L (n + a) := fun hl => by
      have hgo : Go (tot L) 0 1 1 L n (n + a) q' := by
        refine ⟨by omega, h3, by omega, hl, by rwa [Nat.add_sub_cancel_left], 0, w, ?_, by omega, h6⟩
        rw [Nat.one_mul, Nat.add_zero]; exact h4
      have e := go_next hL Nat.one_pos (Nat.one_mul _).symm hroom (by omega) h0 hch0 hat hgo (right_go h8 hl).1
      refine ⟨e, ?_⟩
      have := go_at Nat.one_pos (Nat.one_mul _).symm hgo
      rwa [e] at this
    intro m g1 g2 g3
    rcases Nat.lt_or_ge m (n + a) with hlt | hge
    · rcases Nat.eq_or_lt_of_le g1 with rfl | hgt
      · exact ⟨a, w, h2, h4, h5, h1, fun hl => by rw [h6, (key hl).1], h7⟩
      · rcases g3 with rfl | g3
        · omega
        · exact absurd (run_inner h7 hgt hlt) g3
    · refine ih (tot L - (n + a)) (by omega) rfl (by omega) (key (by omega)).2 h8 m hge g2 ?_
      rcases g3 with rfl | g3
      · omega
      · exact .inr g3

theorem steps_of_right {L : List Dim} (hL : ∀ d ∈ L, DimOk d) (hroom : Room (tot L) 1 L) (h : Right L 0 0) :
    ∀ m, m < tot L → (m = 0 ∨ ¬ Run L (m - 1) 2) → StepOkR L m := by
  have htot := tot_pos hL
  obtain ⟨-, a, q', w, h1, h2, h3, h4, h5, h6, h7, h8⟩ := right_go h htot
  rw [Nat.zero_add] at h1 h5 h8
  rcases Nat.eq_or_lt_of_le h1 with he | hl
  · intro m g2 g3
    rcases Nat.eq_zero_or_pos m with rfl | hgt
    · exact ⟨a, w, h2, h4, by omega, by omega, fun hl => by omega, h7⟩
    · rcases g3 with rfl | g3
      · omega
      · exact absurd (run_inner h7 hgt (by omega)) g3
  · have hgo : Go (tot L) 0 1 1 L 0 a q' :=
      ⟨by omega, h3, by omega, hl, by rwa [Nat.sub_zero], 0, w, by rwa [Nat.one_mul, Nat.add_zero], by omega, h6⟩
    intro m g2 g3
    exact right_next hL hroom hgo (right_go h8 hl).1 _ rfl htot (.inl rfl) h m (Nat.zero_le _) g2 g3

/-- In a release build a right enumeration none of whose ranges ends before it starts is only possible for a good selection. -/
theorem good_of_enumeratesR {ds : Dataset} {ext : Extents} {start count : List Nat}
    (hwf : WF .release ds) (hsel : Selects ext ds.shape start count)
    (hb : InBounds start count ds.shape)
    (hroom : ∀ n ∈ ds.shape, count.prod + n * ds.chunkShape.prod < 2 ^ 62) {items : List Item}
    (hx : ds.chunkSlices .release ext = ok ⟨items, ok ()⟩) (hpos : ∀ it ∈ items, it.start ≤ it.stop)
    (hen : Enumerates ds start count items) : Good .release ds start count := by
  unfold Good
  unfold Dataset.chunkSlices at hx
  rw [chunkSlicer_ok hwf hsel hb, ok_bind] at hx
  obtain ⟨hS, e1, e2⟩ := sel_of hwf hb
  generalize hL : dimsOf start count ds.chunkShape ds.shape = L at *
  by_cases hne : L = []
  · subst hne; rfl
  have htot : count.prod = tot L := by
    rw [e2, List.prod_reverse]; rfl
  have hst : (⟨0, ds.shape.map (fun _ => 0), start, count, count.prod⟩ : Slicer)
      = stateOff L 0 0 := by
    unfold stateOff
    rw [htot, ← e1, ← e2]
    congr 1
    rw [hS.shp]
    clear * -
    induction L with
    | nil => rfl
    | cons d L ih =>
      simp only [List.map_cons, List.reverse_cons, List.map_append, List.map_nil, digits,
        Nat.zero_mod, Nat.zero_div, ih]
  rw [hst] at hx
  have hx := Outcome.ok.inj hx
  have hR : Room (tot L) 1 L := by
    refine room_of hS.dims (B := ds.chunkShape.prod) ?_ fun d hd => ?_
    · rw [hS.cs, List.prod_reverse, Nat.one_mul]
    · rw [← htot]
      apply hroom
      rw [hS.shp, List.mem_reverse]
      exact List.mem_map_of_mem hd
  unfold Enumerates at hen
  rw [e1, e2, rowMajor_eq L hS.dims, List.forall₂_map_left_iff, List.range_eq_range'] at hen
  have hr := right_of_trace hS hne _ 0 0 (tot_pos hS.dims) (Nat.zero_le _) hx hpos (by simpa using hen)
  refine good_of_stepsR L hS.dims hR fun m hm hr2 => steps_of_right hS.dims hR hr m hm ?_
  rcases Nat.eq_zero_or_pos m with h0 | h0
  · exact .inl h0
  · exact .inr (reach_break L hS.dims m hr2 h0 hm)

end Hidefix.Proofs
