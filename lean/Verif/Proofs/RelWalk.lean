import Verif.Proofs.ExactWalk

/-!
# The converse for the loop in a release build

A release build does not stop at a subtraction that goes below zero; the loop may take rows back that it
has claimed.
-/

namespace Hidefix.Proofs
open Hidefix Hidefix.Spec Outcome

/-- Nothing but taking back rows can overflow. -/
def Room (stop : Nat) : Nat → List Dim → Prop
  | _, [] => True
  | S, d :: R => stop + d.cnt * S < 2 ^ 62 ∧ Room stop (S * d.cs) R

theorem debugAssert_release (b : Bool) : debugAssert .release b = ok () := rfl

set_option maxHeartbeats 800000 in
/-- What one lane of the loop did in a release build, if the loop ended inside the selection. -/
theorem rwalk_inv {stop c adv soff S m : Nat} {d : Dim} {R : List Dim} (hd : DimOk d)
    (hR : ∀ x ∈ R, DimOk x) (hS : 0 < S)
    (hroom : stop + d.cnt * S < 2 ^ 62) (hc : c ≤ stop) (hm : m ≤ stop) (hs : soff < stop) {w : WalkOut}
    (h : walk .release stop c adv soff (lanesAt S (d :: R) m) = ok w) (hw : w.soff ≤ stop) :
    (d.csz (m % d.cnt) = 1 ∧ S ≠ 1 ∧ ∃ r, walk .release stop ((m % d.cnt + c) / d.cnt) adv soff
        (lanesAt (S * d.cs) R (m / d.cnt)) = ok r ∧
        w.offs = (m % d.cnt + c) % d.cnt :: r.offs ∧ w.soff = r.soff) ∨
    (¬ (d.csz (m % d.cnt) = 1 ∧ S ≠ 1) ∧
      ((d.full = true ∧ soff + (d.cnt - (m % d.cnt + c) % d.cnt) * S < stop ∧ ∃ adv' r,
          walk .release stop ((m % d.cnt + c) / d.cnt + 1) adv'
            (soff + (d.cnt - (m % d.cnt + c) % d.cnt) * S) (lanesAt (S * d.cs) R (m / d.cnt)) = ok r ∧
          w.offs = 0 :: r.offs ∧ w.soff = r.soff) ∨
       (¬ (d.full = true ∧ soff + (d.cnt - (m % d.cnt + c) % d.cnt) * S < stop) ∧
          w.soff + (m % d.cnt + c) % d.cnt * S = soff + min d.cnt (d.cce (m % d.cnt)) * S ∧
          w.offs = min d.cnt (d.cce (m % d.cnt)) % d.cnt ::
            digits R (m / d.cnt + ((m % d.cnt + c) / d.cnt + min d.cnt (d.cce (m % d.cnt)) / d.cnt))))) := by
  have ho : m % d.cnt < d.cnt := Nat.mod_lt _ hd.cnt
  obtain ⟨f1, f2, f3, f4, f5, f6, f7⟩ := dim_facts hd ho
  have hfit := hd.fit
  have hcnt := hd.cnt
  have hW : W = 2 ^ 64 := by decide
  have h62 : (2 : Nat) ^ 62 = 4611686018427387904 := by decide
  have h64 : (2 : Nat) ^ 64 = 18446744073709551616 := by decide
  have hcS : d.cnt ≤ d.cnt * S := Nat.le_mul_of_pos_right _ hS
  have hml := Nat.div_le_self m d.cnt
  simp only [lanesAt, walk] at h
  rw [cutSize_lane hd ho] at h
  simp only [ok_bind] at h
  rw [add64_of_lt (by omega)] at h
  simp only [ok_bind] at h
  generalize hcur : (m % d.cnt + c) % d.cnt = cur at h ⊢
  generalize hc1 : (m % d.cnt + c) / d.cnt = c1 at h ⊢
  have hcurlt : cur < d.cnt := by rw [← hcur]; exact Nat.mod_lt _ hcnt
  have hc1le : c1 ≤ m % d.cnt + c := by rw [← hc1]; exact Nat.div_le_self _ _
  split at h
  · rename_i hsk
    obtain ⟨r, h2, h⟩ := bind_eq_ok.1 h
    have := Outcome.ok.inj h
    subst this
    exact .inl ⟨hsk.1, hsk.2, r, h2, rfl, rfl⟩
  · rename_i hsk
    refine .inr ⟨hsk, ?_⟩
    rw [debugAssert_release, ok_bind] at h
    rw [add64_of_lt (by omega)] at h
    simp only [ok_bind] at h
    rw [f4, sub64_of_le (by omega)] at h
    simp only [ok_bind] at h
    rw [show min (d.coff (m % d.cnt) + d.cs) d.shp - d.idx = d.cce (m % d.cnt) from rfl] at h
    generalize ho2 : min d.cnt (d.cce (m % d.cnt)) = o2 at h ⊢
    have ho2le : o2 ≤ d.cnt := by omega
    have hdivle : o2 / d.cnt ≤ 1 := by
      calc _ ≤ d.cnt / d.cnt := Nat.div_le_div_right ho2le
        _ = 1 := Nat.div_self hcnt
    have hadd : add64 .release c1 (o2 / d.cnt) = ok (c1 + o2 / d.cnt) := add64_of_lt (by omega)
    have hrest := carryRest_lane .release (S * d.cs) R hR (m / d.cnt) (c1 + o2 / d.cnt) (by omega)
    rcases Nat.lt_or_ge o2 cur with hlt | hge
    · -- taking back
      have hnf : ¬ d.full = true := fun hf => by
        have := ((full_iff hd ho).1 hf).2
        omega
      obtain ⟨x, rfl⟩ : ∃ x, cur = o2 + x := ⟨cur - o2, by omega⟩
      have hx0 : 0 < x := by omega
      have hxS : x * S ≤ d.cnt * S := Nat.mul_le_mul_right _ (by omega)
      have hxS0 : 0 < x * S := Nat.mul_pos hx0 hS
      rw [sub64_back (by omega) hx0 (by omega)] at h
      simp only [ok_bind] at h
      rw [mul64_back hx0 hS (by omega)] at h
      simp only [ok_bind] at h
      obtain ⟨adv', -, h⟩ := bind_eq_ok.1 h
      have hno : ¬ (d.idx = d.coff (m % d.cnt) ∧ d.cnt = d.cce (m % d.cnt)) := fun hh => hnf ((full_iff hd ho).2 hh)
      rcases Nat.lt_or_ge soff (x * S) with h1 | h1
      · exfalso
        rw [add64_of_lt (by omega)] at h
        simp only [ok_bind] at h
        rw [hadd, ok_bind] at h
        rw [if_neg (fun hh => hno ⟨hh.1, hh.2.1⟩), debugAssert_release, ok_bind, hrest, ok_bind] at h
        have := Outcome.ok.inj h
        subst this
        simp only at hw
        omega
      · rw [add64_back hxS0 h1 (by omega)] at h
        simp only [ok_bind] at h
        rw [hadd, ok_bind] at h
        rw [if_neg (fun hh => hno ⟨hh.1, hh.2.1⟩), debugAssert_release, ok_bind, hrest, ok_bind] at h
        have := Outcome.ok.inj h
        subst this
        refine .inr ⟨fun hh => hnf hh.1, ?_, rfl⟩
        simp only [Nat.add_mul]
        omega
    · have hle : (o2 - cur) * S ≤ d.cnt * S := Nat.mul_le_mul_right _ (by omega)
      rw [sub64_of_le hge] at h
      simp only [ok_bind] at h
      rw [mul64_of_lt (by omega)] at h
      simp only [ok_bind] at h
      obtain ⟨adv', -, h⟩ := bind_eq_ok.1 h
      rw [add64_of_lt (by omega)] at h
      simp only [ok_bind] at h
      rw [hadd, ok_bind] at h
      split at h
      · rename_i hcont
        have hf := (full_iff hd ho).2 ⟨hcont.1, hcont.2.1⟩
        have ho2' : o2 = d.cnt := by omega
        rw [ho2', Nat.div_self hcnt, Nat.mod_self] at h
        obtain ⟨r, h7, h⟩ := bind_eq_ok.1 h
        have := Outcome.ok.inj h
        subst this
        rw [ho2'] at hcont
        exact .inl ⟨hf, hcont.2.2, adv', r, h7, rfl, rfl⟩
      · rename_i hcont
        rw [debugAssert_release, ok_bind, hrest, ok_bind] at h
        have := Outcome.ok.inj h
        subst this
        refine .inr ⟨?_, ?_, rfl⟩
        · rintro ⟨hf, hlt⟩
          have := (full_iff hd ho).1 hf
          have ho2' : o2 = d.cnt := by omega
          exact hcont ⟨this.1, this.2, by rw [ho2']; exact hlt⟩
        · have : o2 * S = (o2 - cur) * S + cur * S := by rw [← Nat.add_mul]; congr 1; omega
          simp only
          omega

theorem digits_inj {L : List Dim} (hL : ∀ d ∈ L, DimOk d) {a b : Nat} (ha : a < tot L) (hb : b < tot L)
    (h : digits L a = digits L b) : a = b := by
  induction L generalizing a b with
  | nil => simp only [tot, List.map_nil, List.prod_nil] at ha hb; omega
  | cons d R ih =>
    simp only [digits, List.cons.injEq] at h
    rw [tot_cons] at ha hb
    have hd := hL d (by simp)
    have := ih (fun x hx => hL x (by simp [hx])) (row_lt_tot hd ha) (row_lt_tot hd hb) h.2
    have q1 := Nat.div_add_mod a d.cnt
    have q2 := Nat.div_add_mod b d.cnt
    rw [this, h.1] at q1
    omega

/-- Entered at the first position and ending at its coordinates, the loop takes nothing back. -/
theorem rwalk_home {L : List Dim} (hL : ∀ d ∈ L, DimOk d) {stop c adv soff S : Nat} (hS : 0 < S)
    (hroom : Room stop S L) (hc : c ≤ soff) (hs : soff < stop) {w : WalkOut}
    (h : walk .release stop c adv soff (lanesAt S L 0) = ok w) (hw : w.soff ≤ stop)
    (hoffs : w.offs = digits L 0) : soff ≤ w.soff := by
  induction L generalizing c adv soff S w with
  | nil =>
    have := Outcome.ok.inj h
    subst this; exact Nat.le_refl _
  | cons d R ih =>
    have hd := hL d (by simp)
    have hR : ∀ x ∈ R, DimOk x := fun x hx => hL x (by simp [hx])
    have hcnt := hd.cnt
    simp only [digits, Nat.zero_mod, Nat.zero_div] at hoffs
    have hi := rwalk_inv hd hR hS hroom.1 (by omega) (Nat.zero_le _) hs h hw
    simp only [Nat.zero_mod, Nat.zero_div, Nat.zero_add] at hi
    have hSc : 0 < S * d.cs := Nat.mul_pos hS hd.cs
    have hdc := Nat.div_le_self c d.cnt
    rcases hi with ⟨-, -, r, h1, h2, h3⟩ | ⟨-, ⟨-, h0, adv', r, h1, h2, h3⟩ | ⟨-, h1, h2⟩⟩
    · rw [h3]
      rw [h2] at hoffs
      exact ih hR hSc hroom.2 (by omega) hs h1 (by omega) (List.cons.inj hoffs).2
    · rw [h3]
      rw [h2] at hoffs
      have : 0 < (d.cnt - c % d.cnt) * S :=
        Nat.mul_pos (by have := Nat.mod_lt c hcnt; omega) hS
      have := ih hR hSc hroom.2 (by omega) h0 h1 (by omega) (List.cons.inj hoffs).2
      omega
    · rw [h2] at hoffs
      have h4 := (List.cons.inj hoffs).1
      obtain ⟨f1, f2, f3, f4, f5, f6, f7⟩ := dim_facts hd hcnt
      have hmin : min d.cnt (d.cce 0) = d.cnt := by
        rcases Nat.lt_or_ge (min d.cnt (d.cce 0)) d.cnt with h | h
        · rw [Nat.mod_eq_of_lt h] at h4; omega
        · omega
      rw [hmin] at h1
      have : c % d.cnt * S ≤ d.cnt * S := Nat.mul_le_mul_right _ (Nat.le_of_lt (Nat.mod_lt _ hcnt))
      omega

/-- Entered at the first position with at most one row claimed, the loop takes nothing back. -/
theorem rwalk_first {L : List Dim} (hL : ∀ d ∈ L, DimOk d) {stop c adv soff S : Nat} (hS : 0 < S)
    (hS1 : S ≠ 1) (hroom : Room stop S L) (hc : c ≤ 1) (hs : soff < stop) {w : WalkOut}
    (h : walk .release stop c adv soff (lanesAt S L 0) = ok w) (hw : w.soff ≤ stop) :
    soff ≤ w.soff := by
  induction L generalizing c adv soff S w with
  | nil =>
    have := Outcome.ok.inj h
    subst this; exact Nat.le_refl _
  | cons d R ih =>
    have hd := hL d (by simp)
    have hR : ∀ x ∈ R, DimOk x := fun x hx => hL x (by simp [hx])
    have hcnt := hd.cnt
    have hi := rwalk_inv hd hR hS hroom.1 (by omega) (Nat.zero_le _) hs h hw
    simp only [Nat.zero_mod, Nat.zero_div, Nat.zero_add] at hi
    have hSc : 0 < S * d.cs := Nat.mul_pos hS hd.cs
    have hS' : S * d.cs ≠ 1 := fun h => hS1 (Nat.eq_one_of_mul_eq_one_right h)
    have hdc := Nat.div_le_self c d.cnt
    obtain ⟨f1, f2, f3, f4, f5, f6, f7⟩ := dim_facts hd hcnt
    rcases hi with ⟨-, -, r, h1, h2, h3⟩ | ⟨hsk, ⟨hf, h0, adv', r, h1, h2, h3⟩ | ⟨-, h1, h2⟩⟩
    · rw [h3]
      exact ih hR hSc hS' hroom.2 (by omega) hs h1 (by omega)
    · rw [h3]
      have hcn : 1 < d.cnt := by
        have := (full_iff hd hcnt).1 hf
        by_contra hlt
        exact hsk ⟨by omega, hS1⟩
      have : c / d.cnt = 0 := Nat.div_eq_of_lt (by omega)
      have := ih hR hSc hS' hroom.2 (by omega) h0 h1 (by omega)
      omega
    · have : c % d.cnt ≤ min d.cnt (d.cce 0) := by
        have := Nat.mod_le c d.cnt
        have := Nat.mod_lt c hcnt
        omega
      have : c % d.cnt * S ≤ min d.cnt (d.cce 0) * S := Nat.mul_le_mul_right _ this
      omega

/-- Rows that were claimed with too small a stride cannot be taken back so that the loop ends with the second
row. -/
theorem rwalk_no_return {L : List Dim} (hL : ∀ d ∈ L, DimOk d) {stop C adv S Q : Nat} (hQ : 0 < Q)
    (hS : Q < S) (hroom : Room stop S L) (hC : 2 ≤ C) (hlt : C < tot L) (hstop : stop = Q * tot L)
    {w : WalkOut} (h : walk .release stop C adv (Q * C) (lanesAt S L 0) = ok w) (hw : w.soff = Q)
    (hoffs : w.offs = digits L 1) : False := by
  induction L generalizing adv S w with
  | nil => simp [tot] at hlt; omega
  | cons d R ih =>
    have hd := hL d (by simp)
    have hR : ∀ x ∈ R, DimOk x := fun x hx => hL x (by simp [hx])
    have hcnt := hd.cnt
    have htR := tot_pos hR
    have hs : Q * C < stop := by rw [hstop]; exact Nat.mul_lt_mul_of_pos_left hlt hQ
    have hCs : C ≤ stop := by
      have := Nat.le_mul_of_pos_left C hQ
      omega
    have hQ2 : Q * 2 ≤ Q * C := Nat.mul_le_mul_left _ hC
    have hSc : S * 1 ≤ S * d.cs := Nat.mul_le_mul_left _ hd.cs
    have hi := rwalk_inv hd hR (by omega) hroom.1 hCs (Nat.zero_le _) hs h (by omega)
    simp only [Nat.zero_mod, Nat.zero_div, Nat.zero_add] at hi
    obtain ⟨f1, f2, f3, f4, f5, f6, f7⟩ := dim_facts hd hcnt
    have hdc := Nat.div_le_self C d.cnt
    by_cases h1 : d.cnt = 1
    · have htt : tot (d :: R) = tot R := by rw [tot_cons, h1, Nat.one_mul]
      rw [htt] at hlt hstop
      simp only [digits, h1, Nat.mod_one, Nat.div_one] at hoffs
      simp only [h1, Nat.mod_one, Nat.div_one] at hi
      rcases hi with ⟨-, -, r, h2, h3, h4⟩ | ⟨hsk, ⟨hf, h0, adv', r, h2, h3, h4⟩ | ⟨-, h2, h3⟩⟩
      · rw [h3] at hoffs
        exact ih hR (by omega) hroom.2 hlt hstop h2 (by omega) (List.cons.inj hoffs).2
      · have := (full_iff hd hcnt).1 hf
        exact hsk ⟨by omega, by omega⟩
      · rw [show min 1 (d.cce 0) = 1 by omega] at h2
        omega
    · have h2 : 1 < d.cnt := by omega
      simp only [digits, Nat.mod_eq_of_lt h2, Nat.div_eq_of_lt h2] at hoffs
      rcases hi with ⟨-, -, r, h3, h4, h5⟩ | ⟨hsk, ⟨hf, h0, adv', r, h3, h4, h5⟩ | ⟨-, h3, h4⟩⟩
      · rw [h4] at hoffs
        have := rwalk_home hR (by omega) hroom.2 (by
          have := Nat.le_mul_of_pos_left C hQ
          omega) hs h3 (by omega) (List.cons.inj hoffs).2
        omega
      · rw [h4] at hoffs
        have := (List.cons.inj hoffs).1
        omega
      · rw [h4] at hoffs
        have h5 := (List.cons.inj hoffs).1
        have h6 := (List.cons.inj hoffs).2
        have hmin : min d.cnt (d.cce 0) = 1 := by
          rcases Nat.lt_or_ge (min d.cnt (d.cce 0)) d.cnt with h | h
          · rwa [Nat.mod_eq_of_lt h] at h5
          · rw [show min d.cnt (d.cce 0) = d.cnt by omega, Nat.mod_self] at h5
            omega
        rw [hmin, Nat.div_eq_of_lt h2, Nat.add_zero] at h6
        have h7 : C / d.cnt < tot R := row_lt_tot hd (by rw [← tot_cons]; exact hlt)
        have h8 := digits_inj hR h7 htR h6
        have h9 : C < d.cnt := by
          rcases Nat.lt_or_ge C d.cnt with h | h
          · exact h
          · have := (Nat.one_le_div_iff hcnt).2 h
            omega
        rw [hmin, Nat.mod_eq_of_lt h9, hw, Nat.one_mul] at h3
        obtain ⟨k, rfl⟩ : ∃ k, C = k + 2 := ⟨C - 2, by omega⟩
        have : (k + 1) * Q < (k + 1) * S := Nat.mul_lt_mul_of_pos_left hS (by omega)
        have e1 : (k + 2) * S = (k + 1) * S + S := by ring
        have e2 : Q * (k + 2) = (k + 1) * Q + Q := by ring
        omega

/-- Without a carry, some position moves unless all chunks have extent one. -/
theorem rwalk_moves {L : List Dim} (hL : ∀ d ∈ L, DimOk d) (hu : ¬ ∀ d ∈ L, d.allunit = true)
    {stop S : Nat} (hS : 0 < S) (hS1 : S ≠ 1) (hroom : Room stop S L) (htot : tot L ≤ stop) :
    ∃ m, m < tot L ∧ ∀ adv soff w, soff < stop →
      walk .release stop 0 adv soff (lanesAt S L m) = ok w → w.offs = digits L m → w.soff ≤ stop →
      w.soff ≠ soff := by
  induction L generalizing S with
  | nil => simp at hu
  | cons d R ih =>
    have hd := hL d (by simp)
    have hR : ∀ x ∈ R, DimOk x := fun x hx => hL x (by simp [hx])
    have hcnt := hd.cnt
    have htR := tot_pos hR
    have htd := tot_cons d R
    have hge : d.cnt * 1 ≤ d.cnt * tot R := Nat.mul_le_mul_left _ htR
    have hS' : S * d.cs ≠ 1 := fun h => hS1 (Nat.eq_one_of_mul_eq_one_right h)
    by_cases hda : d.allunit = true
    · have hu' : ¬ ∀ x ∈ R, x.allunit = true := by
        intro hall
        apply hu
        intro x hx
        rcases List.mem_cons.1 hx with rfl | hx
        · exact hda
        · exact hall x hx
      have hcsz : d.csz 0 = 1 := by
        simp only [Dim.allunit, List.all_eq_true, List.mem_range, beq_iff_eq] at hda
        exact hda 0 hcnt
      have h1R := Nat.le_mul_of_pos_left (tot R) hcnt
      obtain ⟨r, hr, hadv⟩ := ih hR hu' (Nat.mul_pos hS hd.cs) hS' hroom.2 (by omega)
      have hlt : d.cnt * r < d.cnt * tot R := Nat.mul_lt_mul_of_pos_left hr hcnt
      refine ⟨d.cnt * r, by omega, ?_⟩
      intro adv soff w hs hw hoffs hle
      have hi := rwalk_inv hd hR hS hroom.1 (Nat.zero_le _) (by omega) hs hw hle
      simp only [Nat.mul_mod_right, Nat.mul_div_cancel_left _ hcnt, Nat.zero_add, Nat.zero_mod,
        Nat.zero_div] at hi
      simp only [digits, Nat.mul_mod_right, Nat.mul_div_cancel_left _ hcnt] at hoffs
      rcases hi with ⟨-, -, r', h1, h2, h3⟩ | ⟨hsk, -⟩
      · rw [h2] at hoffs
        rw [h3]
        exact hadv adv soff r' hs h1 (List.cons.inj hoffs).2 (by omega)
      · exact absurd ⟨hcsz, hS1⟩ hsk
    · simp only [Dim.allunit, List.all_eq_true, List.mem_range, beq_iff_eq, not_forall] at hda
      obtain ⟨o, ho, hne⟩ := hda
      obtain ⟨f1, f2, f3, f4, f5, f6, f7⟩ := dim_facts hd ho
      by_cases hf : d.full = true
      · obtain ⟨g1, g2⟩ := (full_iff hd ho).1 hf
        have hc2 : 1 < d.cnt := by omega
        obtain ⟨g3, g4⟩ := (full_iff hd hc2).1 hf
        obtain ⟨k1, k2, k3, k4, k5, k6, k7⟩ := dim_facts hd hc2
        refine ⟨1, by omega, ?_⟩
        intro adv soff w hs hw hoffs hle
        have hi := rwalk_inv hd hR hS hroom.1 (Nat.zero_le _) (by omega) hs hw hle
        simp only [Nat.mod_eq_of_lt hc2, Nat.div_eq_of_lt hc2, Nat.add_zero] at hi
        simp only [digits, Nat.mod_eq_of_lt hc2, Nat.div_eq_of_lt hc2] at hoffs
        rcases hi with ⟨h1, -⟩ | ⟨-, ⟨-, -, adv', r, -, h2, -⟩ | ⟨-, h2, -⟩⟩
        · omega
        · rw [h2] at hoffs
          have := (List.cons.inj hoffs).1
          omega
        · rw [show min d.cnt (d.cce 1) = d.cnt by omega, Nat.one_mul] at h2
          have : 2 * S ≤ d.cnt * S := Nat.mul_le_mul_right _ hc2
          omega
      · refine ⟨o, by omega, ?_⟩
        intro adv soff w hs hw hoffs hle
        have hi := rwalk_inv hd hR hS hroom.1 (Nat.zero_le _) (by omega) hs hw hle
        simp only [Nat.mod_eq_of_lt ho, Nat.div_eq_of_lt ho, Nat.add_zero] at hi
        rcases hi with ⟨h1, -⟩ | ⟨-, ⟨h1, -⟩ | ⟨-, h2, -⟩⟩
        · exact absurd h1 hne
        · exact absurd h1 hf
        · have : (o + 1) * S ≤ min d.cnt (d.cce o) * S := Nat.mul_le_mul_right _ (by omega)
          rw [Nat.add_mul] at this
          omega

/-! ## Right at every entry -/

/-- The loop, entered at position `m` of the dimensions `L` with `c` rows claimed, ends with `a` rows, and they
are a run; more than one row only if the inner dimensions are whole chunks (`ex`). -/
def RtR (ex : Bool) (stop c P S : Nat) (L : List Dim) (m : Nat) : Prop :=
  ∃ adv a w, walk .release stop c adv (P * (m + c)) (lanesAt S L m) = ok w ∧ w.soff = P * (m + a) ∧
    0 < a ∧ m + a ≤ tot L ∧ (m + a < tot L → w.offs = digits L (m + a)) ∧ Run L m a ∧
    (1 < a → ex = true)

/-- If the loop is right in the dimensions `d :: R` and goes on to `R`, it is right there. -/
theorem descendR {d : Dim} {R : List Dim} (hd : DimOk d)
    {ex : Bool} {stop P S m a c' adv : Nat} {r : WalkOut} {offs : List Nat}
    (ha : 0 < a) (hle : m + a ≤ tot (d :: R))
    (hdig : m + a < tot (d :: R) → offs = digits (d :: R) (m + a))
    (hrun : Run (d :: R) m a) (hex : 1 < a → ex = true)
    (hw : walk .release stop c' adv (P * d.cnt * (m / d.cnt + c')) (lanesAt S R (m / d.cnt)) = ok r)
    (hoffs : offs = 0 :: r.offs) (hsoff : r.soff = P * (m + a)) :
    RtR (ex && d.exact) stop c' (P * d.cnt) S R (m / d.cnt) := by
  have hcnt := hd.cnt
  have hdm := Nat.div_add_mod m d.cnt
  have ho : m % d.cnt < d.cnt := Nat.mod_lt _ hcnt
  have hmod : (m + a) % d.cnt = 0 := by
    rcases Nat.lt_or_ge (m + a) (tot (d :: R)) with h | h
    · have := hdig h
      rw [hoffs, digits] at this
      exact (List.cons.inj this).1.symm
    · rw [show m + a = tot (d :: R) by omega, tot_cons, Nat.mul_mod_right]
  have hX : m + a = d.cnt * ((m + a) / d.cnt) := by
    have := Nat.div_add_mod (m + a) d.cnt
    omega
  generalize hq : (m + a) / d.cnt = q at hX
  generalize hrr : m / d.cnt = r0 at *
  have hge : r0 + 1 ≤ q := by
    have : d.cnt * r0 < d.cnt * q := by omega
    exact Nat.lt_of_mul_lt_mul_left this
  obtain ⟨a', rfl⟩ : ∃ a', q = r0 + a' := ⟨q - r0, by omega⟩
  have hqt : r0 + a' ≤ tot R := by
    rw [hX, tot_cons] at hle
    exact Nat.le_of_mul_le_mul_left hle hcnt
  have hcross : 1 < a' → d.exact = true ∧ Run R r0 a' ∧ 1 < a := by
    intro hb
    have hlt : d.cnt * (r0 + (a' - 1)) < m + a := by
      rw [hX]
      exact Nat.mul_lt_mul_of_pos_left (by omega) hcnt
    have := run_cross hd hrun (b := a' - 1) (by omega) (by rw [hrr]; exact hlt)
    rw [hrr, Nat.sub_add_cancel (by omega)] at this
    refine ⟨this.1, this.2, ?_⟩
    have h2 : d.cnt * (r0 + 2) ≤ d.cnt * (r0 + a') := Nat.mul_le_mul_left _ (by omega)
    rw [Nat.mul_add] at h2
    omega
  refine ⟨adv, a', r, hw, ?_, by omega, hqt, ?_, ?_, ?_⟩
  · rw [hsoff, hX, Nat.mul_assoc]
  · intro h
    have hlt : m + a < tot (d :: R) := by
      rw [hX, tot_cons]; exact Nat.mul_lt_mul_of_pos_left h hcnt
    have := hdig hlt
    rw [hoffs, digits, hq] at this
    exact (List.cons.inj this).2
  · rcases Nat.lt_or_ge 1 a' with h | h
    · exact (hcross h).2.1
    · rw [show a' = 1 by omega]
      exact run_one _ _
  · intro h
    rw [hex (hcross h).2.2, (hcross h).1]; rfl

/-- Outside dimensions walked completely: `okFrom` is needed. -/
theorem need_outerR (stop : Nat) (L : List Dim) (hL : ∀ d ∈ L, DimOk d) (ex al : Bool) (P S : Nat)
    (hP : 0 < P) (hS : 0 < S) (hS1 : S ≠ 1) (hroom : Room stop S L) (hstop : stop = P * tot L)
    (hal : al = true → ex = false) (hex : ex = true → S = P)
    (h : ∀ m, m + 1 < tot L → (al = true ∨ Reach L m) → RtR ex stop 1 P S L m) :
    okFrom ex al L = true := by
  induction L generalizing ex al P S with
  | nil => rfl
  | cons d R ih =>
    have hd := hL d (by simp)
    have hR : ∀ x ∈ R, DimOk x := fun x hx => hL x (by simp [hx])
    have hcnt := hd.cnt
    have htR := tot_pos hR
    have htd := tot_cons d R
    have hS' : S * d.cs ≠ 1 := fun h => hS1 (Nat.eq_one_of_mul_eq_one_right h)
    have hPc : 0 < P * d.cnt := Nat.mul_pos hP hcnt
    have hSc : 0 < S * d.cs := Nat.mul_pos hS hd.cs
    have hex' : (ex && d.exact) = true → S * d.cs = P * d.cnt := by
      intro h
      simp only [Bool.and_eq_true, Dim.exact, beq_iff_eq] at h
      rw [hex h.1, h.2.2]
    have hstop' : stop = P * d.cnt * tot R := by rw [hstop, htd, Nat.mul_assoc]
    have hts : tot (d :: R) ≤ stop := by rw [hstop]; exact Nat.le_mul_of_pos_left _ hP
    have hle' : ∀ m, m ≤ tot (d :: R) → P * m ≤ stop := fun m hm => by
      rw [hstop]; exact Nat.mul_le_mul_left _ hm
    have hlt' : ∀ m, m < tot (d :: R) → P * m < stop := fun m hm => by
      rw [hstop]; exact Nat.mul_lt_mul_of_pos_left hm hP
    -- what one call shows
    have inv : ∀ {m adv w}, m + 1 < tot (d :: R) → w.soff ≤ stop →
        walk .release stop 1 adv (P * (m + 1)) (lanesAt S (d :: R) m) = ok w → _ :=
      fun {m adv w} h1 h2 h3 => rwalk_inv hd hR hS hroom.1 (by omega) (by omega) (hlt' _ h1) h3 h2
    rw [okFrom, Bool.or_eq_true]
    by_cases ht : tot (d :: R) = 1
    · left; simpa using ht
    right
    -- a row begun in its first row
    have inrow : ∀ o, o + 1 < d.cnt → d.csz o ≠ 1 → RtR ex stop 1 P S (d :: R) o →
        ex = true ∨ o + 1 = d.cce o := by
      rintro o ho hc1 ⟨adv, a, w, hw, hws, ha, hle, hdig, hrun, hxe⟩
      obtain ⟨f1, f2, f3, f4, f5, f6, f7⟩ := dim_facts hd (show o < d.cnt by omega)
      have hge : d.cnt * 1 ≤ d.cnt * tot R := Nat.mul_le_mul_left _ htR
      have h2 : P * (o + 1) < P * (o + a) → 1 < a := fun h => by
        have := Nat.lt_of_mul_lt_mul_left h
        omega
      have hi := inv (by omega) (by rw [hws]; exact hle' _ hle) hw
      rw [Nat.mod_eq_of_lt (show o < d.cnt by omega), Nat.mod_eq_of_lt ho,
        Nat.div_eq_of_lt (show o < d.cnt by omega), Nat.div_eq_of_lt ho] at hi
      rcases hi with ⟨h1, -⟩ | ⟨-, ⟨hf, h0, adv', r, h1, -, h3⟩ | ⟨-, h1, -⟩⟩
      · exact absurd h1 hc1
      · left
        apply hxe
        apply h2
        have := rwalk_first hR hSc hS' hroom.2 (by omega) h0 h1 (by
          rw [← h3, hws]; exact hle' _ hle)
        have : 0 < (d.cnt - (o + 1)) * S := Nat.mul_pos (by omega) hS
        omega
      · by_cases hz : min d.cnt (d.cce o) = o + 1
        · right; omega
        · left
          apply hxe
          apply h2
          have : (o + 1) * S < min d.cnt (d.cce o) * S := Nat.mul_lt_mul_of_pos_right (by omega) hS
          omega
    rw [List.all_eq_true]
    intro o ho
    rw [List.mem_range] at ho
    obtain ⟨f1, f2, f3, f4, f5, f6, f7⟩ := dim_facts hd ho
    have hfit := hd.fit
    by_cases hs : (al || d.segStart o) = true
    swap
    · rw [Bool.not_eq_true] at hs; rw [hs]; rfl
    by_cases hl : o + 1 = d.cnt ∧ tot R = 1
    · simp [hl.1, hl.2]
    rw [Bool.or_eq_true]
    right
    -- the loop at column `o` of row `r`
    have key : ∀ r, (al = true ∨ d.full = false ∨ Reach R r) → o + d.cnt * r + 1 < tot (d :: R) →
        RtR ex stop 1 P S (d :: R) (o + d.cnt * r) ∧ (o + d.cnt * r) % d.cnt = o ∧
        (o + d.cnt * r) / d.cnt = r := by
      intro r hr hlt
      have e1 : (o + d.cnt * r) % d.cnt = o := by
        rw [Nat.add_mul_mod_self_left, Nat.mod_eq_of_lt ho]
      have e2 : (o + d.cnt * r) / d.cnt = r := by
        rw [Nat.add_mul_div_left _ _ hcnt, Nat.div_eq_of_lt ho, Nat.zero_add]
      refine ⟨h _ hlt ?_, e1, e2⟩
      by_cases ha : al = true
      · exact .inl ha
      · right
        refine ⟨?_, fun hf => ?_⟩
        · rw [e1]; simpa [ha] using hs
        · rw [e2]
          rcases hr with hr | hr | hr
          · exact absurd hr ha
          · rw [hf] at hr; cases hr
          · exact hr
    have rowlt : ∀ r, r + 1 < tot R → o + d.cnt * r + 1 < tot (d :: R) := by
      intro r hr
      have : d.cnt * (r + 1 + 1) ≤ d.cnt * tot R := Nat.mul_le_mul_left _ hr
      rw [htd]
      simp only [Nat.mul_add] at this
      omega
    by_cases hc1 : d.csz o = 1
    · rw [if_pos (by simpa using hc1)]
      by_cases hlast : o + 1 = d.cnt
      · rw [if_pos (by simpa using hlast)]
        refine ih hR (ex && d.exact) (al || !d.full) (P * d.cnt) (S * d.cs) hPc hSc hS' hroom.2 hstop' ?_
          hex' ?_
        · intro ha
          rw [Bool.or_eq_true] at ha
          rcases ha with ha | ha
          · rw [hal ha]; rfl
          · cases hx : d.exact
            · simp
            · rw [exact_full hd hx] at ha; cases ha
        · intro r hr hreach
          obtain ⟨⟨adv, a, w, hw, hws, ha, hle, hdig, hrun, hxe⟩, e1, e2⟩ := key r (by
            rcases hreach with h | h
            · rw [Bool.or_eq_true] at h
              rcases h with h | h
              · exact .inl h
              · exact .inr (.inl (by simpa using h))
            · exact .inr (.inr h)) (rowlt r hr)
          rcases inv (rowlt r hr) (by rw [hws]; exact hle' _ hle) hw with ⟨-, -, r', h1, h2, h3⟩ | ⟨h1, -⟩
          · rw [e1, hlast, Nat.div_self hcnt] at h1
            rw [e1, hlast, Nat.mod_self] at h2
            have hsoff : P * (o + d.cnt * r + 1) = P * d.cnt * ((o + d.cnt * r) / d.cnt + 1) := by
              rw [e2, Nat.mul_assoc, Nat.mul_add d.cnt]
              congr 1; omega
            rw [hsoff] at h1
            have := descendR hd ha hle hdig hrun hxe h1 h2 (h3.symm.trans hws)
            rwa [e2] at this
          · rw [e1] at h1; exact absurd ⟨hc1, hS1⟩ h1
      · rw [if_neg (by simpa using hlast)]
        by_contra hall
        have hall : ¬ ∀ x ∈ R, x.allunit = true := by simpa using hall
        have hRs : tot R ≤ stop := by
          rw [hstop']; exact Nat.le_mul_of_pos_left _ hPc
        obtain ⟨r, hr, hadv⟩ := rwalk_moves hR hall hSc hS' hroom.2 hRs
        have hnf : d.full = false := by
          cases hf : d.full
          · rfl
          · have := (full_iff hd ho).1 hf
            omega
        have hlt : o + d.cnt * r + 1 < tot (d :: R) := by
          have : d.cnt * (r + 1) ≤ d.cnt * tot R := Nat.mul_le_mul_left _ hr
          rw [htd]
          simp only [Nat.mul_add] at this
          omega
        obtain ⟨⟨adv, a, w, hw, hws, ha, hle, hdig, hrun, hxe⟩, e1, e2⟩ := key r (.inr (.inl hnf)) hlt
        have ha1 : a = 1 := by
          by_contra hne
          have := run_in_row hd (hrun.mono (b := 2) (by omega)) (by omega) (by rw [e1]; omega)
          rw [e1] at this
          omega
        subst ha1
        rcases inv hlt (by rw [hws]; exact hle' _ hle) hw with ⟨-, -, r', h1, h2, h3⟩ | ⟨h1, -⟩
        · have e3 : (o + d.cnt * r + 1) % d.cnt = o + 1 ∧ (o + d.cnt * r + 1) / d.cnt = r := by
            have := add_mod_div_of_lt (m := o + d.cnt * r) (k := 1) hcnt (by rw [e1]; omega)
            rw [e1, e2] at this
            exact this
          rw [e1, Nat.div_eq_of_lt (by omega), e2] at h1
          have h4 := hdig hlt
          rw [h2, digits, e3.2] at h4
          exact hadv _ _ _ (hlt' _ hlt) h1 (List.cons.inj h4).2
            (by rw [← h3, hws]; exact hle' _ hle) (by rw [← h3, hws])
        · rw [e1] at h1; exact absurd ⟨hc1, hS1⟩ h1
    · rw [if_neg (by simpa using hc1)]
      have h0 : o + d.cnt * 0 + 1 < tot (d :: R) := by
        rw [htd]
        rcases Nat.lt_or_ge (o + 1) d.cnt with h | h
        · have : d.cnt * 1 ≤ d.cnt * tot R := Nat.mul_le_mul_left _ htR
          omega
        · have : d.cnt * 2 ≤ d.cnt * tot R := Nat.mul_le_mul_left _ (by
            have : tot R ≠ 1 := fun h' => hl ⟨by omega, h'⟩
            omega)
          omega
      -- what the first row shows
      have hfirst : o + 1 < d.cnt ∧ (ex = true ∨ o + 1 = d.cce o) := by
        obtain ⟨hRt, e1, e2⟩ := key 0 (.inr (.inr (reach_zero R))) h0
        have hlt : o + 1 < d.cnt := by
          by_contra hnlt
          have hlast : o + 1 = d.cnt := by omega
          obtain ⟨adv, a, w, hw, hws, ha, hle, hdig, hrun, hxe⟩ := hRt
          have noseg : d.full = true → al = true := by
            intro hf
            by_contra ha
            have := seg_full hd hf ho (by simpa [ha] using hs)
            have := (full_iff hd ho).1 hf
            omega
          have hbig : ¬ 1 < a := by
            intro ha1
            have hx := (run_cross hd hrun (b := 1) (by omega) (by rw [e2]; omega)).1
            have := hal (noseg (exact_full hd hx))
            rw [this] at hxe
            exact absurd (hxe ha1) (by simp)
          have hi := inv h0 (by rw [hws]; exact hle' _ hle) hw
          rw [e1, hlast, Nat.mod_self] at hi
          rcases hi with ⟨h1, -⟩ | ⟨-, ⟨hf, -⟩ | ⟨-, h1, -⟩⟩
          · exact absurd h1 hc1
          · have hfi := (full_iff hd ho).1 hf
            have hex0 := hal (noseg hf)
            have hc2 : 0 + 1 < d.cnt := by omega
            obtain ⟨k1, k2, k3, k4, k5, k6, k7⟩ := dim_facts hd hcnt
            have hfi0 := (full_iff hd hcnt).1 hf
            have hge : d.cnt * 1 ≤ d.cnt * tot R := Nat.mul_le_mul_left _ htR
            rcases inrow 0 hc2 (by omega) (h 0 (by omega) (.inl (noseg hf))) with h | h
            · rw [hex0] at h; cases h
            · omega
          · have h3 : P * (o + d.cnt * 0 + 1) < P * (o + d.cnt * 0 + a) := by
              have : 0 < min d.cnt (d.cce o) * S := Nat.mul_pos (by omega) hS
              omega
            have := Nat.lt_of_mul_lt_mul_left h3
            omega
        refine ⟨hlt, inrow o hlt hc1 ?_⟩
        simpa using hRt
      simp only [Bool.and_eq_true, decide_eq_true_eq, Bool.or_eq_true, beq_iff_eq,
        Bool.not_eq_true']
      refine ⟨hfirst, ?_⟩
      by_cases hf : d.full = true
      swap
      · left; simpa using hf
      right
      have hfi := (full_iff hd ho).1 hf
      have hexT : ex = true := by
        rcases hfirst.2 with h | h
        · exact h
        · omega
      have hSP := hex hexT
      refine ih hR (ex && d.exact) al (P * d.cnt) (S * d.cs) hPc hSc hS' hroom.2 hstop' ?_ hex' ?_
      · intro ha; rw [hal ha]; rfl
      · intro r hr hreach
        obtain ⟨⟨adv, a, w, hw, hws, ha, hle, hdig, hrun, hxe⟩, e1, e2⟩ := key r (by
          rcases hreach with h | h
          · exact .inl h
          · exact .inr (.inr h)) (rowlt r hr)
        have hsoff : P * (o + d.cnt * r + 1) + (d.cnt - (o + 1)) * S
            = P * d.cnt * ((o + d.cnt * r) / d.cnt + 1) := by
          rw [e2, hSP, Nat.mul_comm (d.cnt - (o + 1)) P, ← Nat.mul_add, Nat.mul_assoc,
            Nat.mul_add d.cnt]
          congr 1; omega
        have hi := inv (rowlt r hr) (by rw [hws]; exact hle' _ hle) hw
        rw [e1, Nat.mod_eq_of_lt hfirst.1, Nat.div_eq_of_lt hfirst.1, hsoff] at hi
        rcases hi with ⟨h1, -⟩ | ⟨-, ⟨-, hlt, adv', r', h1, h2, h3⟩ | ⟨hno, -⟩⟩
        · exact absurd h1 hc1
        · have := descendR hd ha hle hdig hrun hxe h1 h2 (h3.symm.trans hws)
          rwa [e2] at this
        · exfalso
          apply hno
          refine ⟨hf, ?_⟩
          rw [hstop', e2]
          exact Nat.mul_lt_mul_of_pos_left hr hPc

end Hidefix.Proofs
