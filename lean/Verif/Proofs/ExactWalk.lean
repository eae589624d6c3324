import Verif.Proofs.WalkTop
import Verif.Proofs.General

/-!
# The converse for the loop: in a debug build a loop that is right at every chunk start needs `good`
-/

namespace Hidefix.Proofs
open Hidefix Hidefix.Spec Outcome

/-! ## Runs -/

theorem Run.mono {L : List Dim} {m a b : Nat} (h : Run L m a) (hb : b ≤ a) : Run L m b :=
  fun i hi => h i (by omega)

/-- A run inside one row stays inside one chunk. -/
theorem run_in_row {d : Dim} {R : List Dim} (hd : DimOk d) {m k : Nat} (h : Run (d :: R) m k)
    (hk : 0 < k) (hrow : m % d.cnt + k ≤ d.cnt) : m % d.cnt + k ≤ d.cce (m % d.cnt) := by
  have ho : m % d.cnt < d.cnt := Nat.mod_lt _ hd.cnt
  obtain ⟨f1, f2, f3, f4, f5, f6, f7⟩ := dim_facts hd ho
  have hlt : m % d.cnt + (k - 1) < d.cnt := by omega
  obtain ⟨e1, e2⟩ := add_mod_div_of_lt hd.cnt hlt
  have h1 := (h (k - 1) (by omega)).1
  simp only [cell, List.cons.injEq, e1] at h1
  obtain ⟨g1, g2, -⟩ := dim_facts hd hlt
  unfold Dim.coff at g1 g2
  rw [h1.1] at g1 g2
  have hfit := hd.fit
  have : (d.idx + m % d.cnt) / d.cs * d.cs = d.coff (m % d.cnt) := rfl
  rw [this] at g2
  omega

/-- A run crossing the end of a row needs rows that are whole chunks, and is a run of rows. -/
theorem run_cross {d : Dim} {R : List Dim} (hd : DimOk d) {m k b : Nat} (h : Run (d :: R) m k)
    (hb : 0 < b) (hlt : d.cnt * (m / d.cnt + b) < m + k) :
    d.exact = true ∧ Run R (m / d.cnt) (b + 1) := by
  have hcnt := hd.cnt
  have hcs := hd.cs
  have hdm := Nat.div_add_mod m d.cnt
  have ho : m % d.cnt < d.cnt := Nat.mod_lt _ hcnt
  -- the first element of the `j`-th next row
  have first : ∀ j, 0 < j → j ≤ b →
      d.idx / d.cs = (d.idx + m % d.cnt) / d.cs ∧ cell R (m / d.cnt + j) = cell R (m / d.cnt) ∧
      d.idx % d.cs + d.cs * pos R (m / d.cnt + j)
        = (d.idx + m % d.cnt) % d.cs + d.cs * pos R (m / d.cnt) + (d.cnt * j - m % d.cnt) := by
    intro j hj hjb
    have hle : d.cnt * (m / d.cnt + j) ≤ d.cnt * (m / d.cnt + b) := Nat.mul_le_mul_left _ (by omega)
    have hge : d.cnt * 1 ≤ d.cnt * j := Nat.mul_le_mul_left _ hj
    have e : m + (d.cnt * j - m % d.cnt) = d.cnt * (m / d.cnt + j) := by
      rw [Nat.mul_add]; omega
    have h1 := h (d.cnt * j - m % d.cnt) (by rw [Nat.mul_add] at hle hlt; rw [Nat.mul_add] at hle; omega)
    rw [e] at h1
    simp only [cell, pos, Nat.mul_mod_right, Nat.mul_div_cancel_left _ hcnt, Nat.add_zero,
      List.cons.injEq] at h1
    exact ⟨h1.1.1, h1.1.2, h1.2⟩
  have hex : d.exact = true := by
    obtain ⟨a1, a2, a3⟩ := first 1 (by omega) hb
    -- the last element of this row
    have hl : m % d.cnt + (d.cnt - 1 - m % d.cnt) < d.cnt := by omega
    obtain ⟨e1, e2⟩ := add_mod_div_of_lt hcnt hl
    have hge : d.cnt * (m / d.cnt + 1) ≤ d.cnt * (m / d.cnt + b) := Nat.mul_le_mul_left _ (by omega)
    have h2 := h (d.cnt - 1 - m % d.cnt) (by rw [Nat.mul_add] at hge; omega)
    simp only [cell, pos, e1, e2, List.cons.injEq] at h2
    have e3 : m % d.cnt + (d.cnt - 1 - m % d.cnt) = d.cnt - 1 := by omega
    rw [e3] at h2
    have q1 := Nat.div_add_mod d.idx d.cs
    have q2 := Nat.div_add_mod (d.idx + (d.cnt - 1)) d.cs
    have q3 := Nat.mod_lt (d.idx + (d.cnt - 1)) hcs
    have q4 : d.idx / d.cs = (d.idx + (d.cnt - 1)) / d.cs := by
      rw [h2.1.1]; exact a1
    rw [← q4] at q2
    rw [Nat.mul_one] at a3
    have q5 : d.cs * pos R (m / d.cnt + 1) = d.cs * pos R (m / d.cnt) + d.cnt := by
      have := h2.2
      omega
    have q6 : pos R (m / d.cnt + 1) = pos R (m / d.cnt) + 1 := by
      rcases Nat.lt_trichotomy (pos R (m / d.cnt + 1)) (pos R (m / d.cnt) + 1) with hlt | heq | hgt
      · have : d.cs * pos R (m / d.cnt + 1) ≤ d.cs * pos R (m / d.cnt) :=
          Nat.mul_le_mul_left _ (by omega)
        omega
      · exact heq
      · have : d.cs * (pos R (m / d.cnt) + 2) ≤ d.cs * pos R (m / d.cnt + 1) :=
          Nat.mul_le_mul_left _ (by omega)
        rw [Nat.mul_add] at this
        omega
    rw [q6, Nat.mul_add] at q5
    simp only [Dim.exact, Bool.and_eq_true, beq_iff_eq]
    omega
  refine ⟨hex, ?_⟩
  simp only [Dim.exact, Bool.and_eq_true, beq_iff_eq] at hex
  obtain ⟨h0, hc⟩ := hex
  intro j hj
  rcases Nat.eq_zero_or_pos j with rfl | hj0
  · simp
  obtain ⟨-, a2, a3⟩ := first j hj0 (by omega)
  refine ⟨a2, ?_⟩
  have e : (d.idx + m % d.cnt) % d.cs = m % d.cnt := by
    rw [Nat.add_mod, h0, Nat.zero_add, Nat.mod_mod, Nat.mod_eq_of_lt (by omega)]
  have hge : d.cnt * 1 ≤ d.cnt * j := Nat.mul_le_mul_left _ hj0
  rw [h0, e] at a3
  have : d.cs * pos R (m / d.cnt + j) = d.cs * (pos R (m / d.cnt) + j) := by
    rw [Nat.mul_add, ← hc]
    rw [← hc] at a3
    omega
  exact Nat.eq_of_mul_eq_mul_left hcs this

/-- A position the loop is entered at does not continue the run of the element before it. -/
theorem reach_break (L : List Dim) (hL : ∀ d ∈ L, DimOk d) (m : Nat) (hr : Reach L m)
    (h0 : 0 < m) (hm : m < tot L) : ¬ Run L (m - 1) 2 := by
  induction L generalizing m with
  | nil => simp [tot] at hm; omega
  | cons d R ih =>
    have hd := hL d (by simp)
    have hcnt := hd.cnt
    have hcs := hd.cs
    have hdm := Nat.div_add_mod m d.cnt
    have ho : m % d.cnt < d.cnt := Nat.mod_lt _ hcnt
    intro hrun
    by_cases hz : m % d.cnt = 0
    · have hmul : m = d.cnt * (m / d.cnt) := by omega
      have hpos : 0 < m / d.cnt := by
        rcases Nat.eq_zero_or_pos (m / d.cnt) with h | h
        · rw [h] at hmul; omega
        · exact h
      have hdiv : (m - 1) / d.cnt = m / d.cnt - 1 := by
        apply Nat.div_eq_of_lt_le
        · rw [Nat.mul_comm, Nat.mul_sub]; omega
        · rw [Nat.sub_add_cancel hpos, Nat.mul_comm]; omega
      obtain ⟨hx, hR⟩ := run_cross hd hrun (b := 1) (by omega) (by
        rw [hdiv, Nat.sub_add_cancel hpos]; omega)
      rw [hdiv] at hR
      rw [tot_cons] at hm
      exact ih (fun x hx => hL x (by simp [hx])) _ (hr.2 (exact_full hd hx)) hpos
        (row_lt_tot hd hm) hR
    · obtain ⟨e1, e2⟩ := add_mod_div_of_lt (m := m - 1) (k := 1) hcnt (by
        have : (m - 1) % d.cnt = m % d.cnt - 1 := by
          conv => lhs; rw [show m - 1 = (m % d.cnt - 1) + d.cnt * (m / d.cnt) by omega]
          rw [Nat.add_mul_mod_self_left, Nat.mod_eq_of_lt (by omega)]
        omega)
      have h1 := (hrun 1 (by omega)).1
      rw [show m - 1 + 1 = m by omega] at e1 h1
      simp only [cell, List.cons.injEq] at h1
      have hseg := hr.1
      simp only [Dim.segStart, Bool.or_eq_true, beq_iff_eq, hz, false_or] at hseg
      have q1 := Nat.div_add_mod (d.idx + m % d.cnt) d.cs
      have q2 := Nat.div_add_mod (d.idx + (m - 1) % d.cnt) d.cs
      have q3 := Nat.mod_lt (d.idx + (m - 1) % d.cnt) hcs
      rw [← h1.1] at q2
      omega

/-! ## Inverting the loop -/

/-- What one lane of the loop did in a debug build. -/
theorem walk_inv {stop c adv soff S m : Nat} {d : Dim} {R : List Dim} (hd : DimOk d) {w : WalkOut}
    (h : walk .debug stop c adv soff (lanesAt S (d :: R) m) = ok w) :
    (d.csz (m % d.cnt) = 1 ∧ S ≠ 1 ∧ ∃ r, walk .debug stop ((m % d.cnt + c) / d.cnt) adv soff
        (lanesAt (S * d.cs) R (m / d.cnt)) = ok r ∧
        w = ⟨(m % d.cnt + c) % d.cnt :: r.offs, r.adv, r.soff⟩) ∨
    (¬ (d.csz (m % d.cnt) = 1 ∧ S ≠ 1) ∧ ∃ diff,
      (m % d.cnt + c) % d.cnt ≤ min d.cnt (d.cce (m % d.cnt)) ∧
      diff = (min d.cnt (d.cce (m % d.cnt)) - (m % d.cnt + c) % d.cnt) * S ∧
      ((d.full = true ∧ soff + diff < stop ∧ ∃ r, walk .debug stop ((m % d.cnt + c) / d.cnt + 1)
          (adv + diff) (soff + diff) (lanesAt (S * d.cs) R (m / d.cnt)) = ok r ∧
          w = ⟨0 :: r.offs, r.adv, r.soff⟩) ∨
       (¬ (d.full = true ∧ soff + diff < stop) ∧ soff + diff ≤ stop ∧ ∃ rest,
          w = ⟨min d.cnt (d.cce (m % d.cnt)) % d.cnt :: rest, adv + diff, soff + diff⟩))) := by
  have ho : m % d.cnt < d.cnt := Nat.mod_lt _ hd.cnt
  obtain ⟨f1, f2, f3, f4, f5, f6, f7⟩ := dim_facts hd ho
  have hfit := hd.fit
  simp only [lanesAt, walk] at h
  rw [cutSize_lane hd ho] at h
  simp only [ok_bind] at h
  obtain ⟨o, h1, h⟩ := bind_eq_ok.1 h
  obtain ⟨rfl, -⟩ := add64_debug h1
  split at h
  · rename_i hs
    obtain ⟨r, h2, h⟩ := bind_eq_ok.1 h
    exact .inl ⟨hs.1, hs.2, r, h2, (Outcome.ok.inj h).symm⟩
  · rename_i hs
    refine .inr ⟨hs, ?_⟩
    obtain ⟨_, -, h⟩ := bind_eq_ok.1 h
    rw [add64_of_lt (by omega)] at h
    simp only [ok_bind] at h
    rw [f4, sub64_of_le (by omega)] at h
    simp only [ok_bind] at h
    rw [show min (d.coff (m % d.cnt) + d.cs) d.shp - d.idx = d.cce (m % d.cnt) from rfl] at h
    obtain ⟨x, h2, h⟩ := bind_eq_ok.1 h
    obtain ⟨rfl, hle⟩ := sub64_debug h2
    obtain ⟨y, h3, h⟩ := bind_eq_ok.1 h
    obtain ⟨rfl, -⟩ := mul64_debug h3
    obtain ⟨z, h4, h⟩ := bind_eq_ok.1 h
    obtain ⟨rfl, -⟩ := add64_debug h4
    obtain ⟨z, h5, h⟩ := bind_eq_ok.1 h
    obtain ⟨rfl, -⟩ := add64_debug h5
    obtain ⟨z, h6, h⟩ := bind_eq_ok.1 h
    obtain ⟨rfl, -⟩ := add64_debug h6
    refine ⟨_, hle, rfl, ?_⟩
    split at h
    · rename_i hcont
      have hf := (full_iff hd ho).2 ⟨hcont.1, hcont.2.1⟩
      obtain ⟨r, h7, h⟩ := bind_eq_ok.1 h
      rw [← hcont.2.1, Nat.min_self, Nat.div_self hd.cnt] at h7
      refine .inl ⟨hf, hcont.2.2, r, ?_, ?_⟩
      · rw [← hcont.2.1, Nat.min_self]; exact h7
      · have := (Outcome.ok.inj h).symm
        rwa [← hcont.2.1, Nat.min_self, Nat.mod_self] at this
    · rename_i hcont
      obtain ⟨_, h7, h⟩ := bind_eq_ok.1 h
      have := debugAssert_debug h7
      obtain ⟨rest, -, h⟩ := bind_eq_ok.1 h
      refine .inr ⟨?_, by simpa using this, rest, (Outcome.ok.inj h).symm⟩
      rintro ⟨hf, hlt⟩
      have := (full_iff hd ho).1 hf
      exact hcont ⟨this.1, this.2, hlt⟩

/-- The loop only moves forward, and by as much in the chunk as in the selection. -/
theorem walk_mono {L : List Dim} (hL : ∀ d ∈ L, DimOk d) {stop c adv soff S m : Nat} {w : WalkOut}
    (h : walk .debug stop c adv soff (lanesAt S L m) = ok w) :
    ∃ t, w.adv = adv + t ∧ w.soff = soff + t := by
  induction L generalizing c adv soff S m w with
  | nil =>
    simp only [lanesAt, walk] at h
    have := Outcome.ok.inj h
    subst this
    exact ⟨0, rfl, rfl⟩
  | cons d R ih =>
    have hR : ∀ x ∈ R, DimOk x := fun x hx => hL x (by simp [hx])
    rcases walk_inv (hL d (by simp)) h with ⟨-, -, r, h1, rfl⟩ | ⟨-, diff, -, -, h1⟩
    · obtain ⟨t, a, b⟩ := ih hR h1
      exact ⟨t, a, b⟩
    · rcases h1 with ⟨-, -, r, h1, rfl⟩ | ⟨-, -, rest, rfl⟩
      · obtain ⟨t, a, b⟩ := ih hR h1
        exact ⟨diff + t, by simp [a]; omega, by simp [b]; omega⟩
      · exact ⟨diff, rfl, rfl⟩

/-- Without a carry, some position advances unless all chunks have extent one. -/
theorem walk_zero_pos {L : List Dim} (hL : ∀ d ∈ L, DimOk d) (hu : ¬ ∀ d ∈ L, d.allunit = true)
    {stop S : Nat} (hS : 0 < S) :
    ∃ m, m < tot L ∧ ∀ adv soff w, walk .debug stop 0 adv soff (lanesAt S L m) = ok w →
      adv < w.adv := by
  induction L generalizing S with
  | nil => simp at hu
  | cons d R ih =>
    have hd := hL d (by simp)
    have hR : ∀ x ∈ R, DimOk x := fun x hx => hL x (by simp [hx])
    have hcnt := hd.cnt
    have htR := tot_pos hR
    -- a position where the lane is not passed over
    have gain : ∀ m, ¬ (d.csz (m % d.cnt) = 1 ∧ S ≠ 1) → ∀ adv soff w,
        walk .debug stop 0 adv soff (lanesAt S (d :: R) m) = ok w → adv < w.adv := by
      intro m hs adv soff w hw
      have ho : m % d.cnt < d.cnt := Nat.mod_lt _ hcnt
      obtain ⟨f1, f2, f3, f4, f5, f6, f7⟩ := dim_facts hd ho
      rcases walk_inv hd hw with ⟨h1, h2, -⟩ | ⟨-, diff, hle, hdiff, h1⟩
      · exact absurd ⟨h1, h2⟩ hs
      · rw [Nat.add_zero, Nat.mod_mod] at hdiff
        have : 0 < diff := by
          rw [hdiff]; exact Nat.mul_pos (by omega) hS
        rcases h1 with ⟨-, -, r, h1, rfl⟩ | ⟨-, -, rest, rfl⟩
        · obtain ⟨t, a, b⟩ := walk_mono hR h1
          simp only [a]; omega
        · simp only; omega
    by_cases hS1 : S = 1
    · exact ⟨0, by rw [tot_cons]; exact Nat.mul_pos hcnt htR, gain 0 (fun h => h.2 hS1)⟩
    by_cases hda : d.allunit = true
    · have hu' : ¬ ∀ x ∈ R, x.allunit = true := by
        intro hall
        apply hu
        intro x hx
        rcases List.mem_cons.1 hx with rfl | hx
        · exact hda
        · exact hall x hx
      have hcsz : d.csz 0 = 1 := by
        simp only [Dim.allunit, List.all_eq_true, List.mem_range, beq_iff_eq] at hda
        exact hda 0 hcnt
      obtain ⟨r, hr, hadv⟩ := ih hR hu' (Nat.mul_pos hS hd.cs)
      refine ⟨d.cnt * r, by rw [tot_cons]; exact Nat.mul_lt_mul_of_pos_left hr hcnt, ?_⟩
      intro adv soff w hw
      rcases walk_inv hd hw with ⟨-, -, r', h1, rfl⟩ | ⟨h1, -⟩
      · rw [Nat.mul_mod_right, Nat.add_zero, Nat.zero_div, Nat.mul_div_cancel_left _ hcnt] at h1
        exact hadv adv soff r' h1
      · rw [Nat.mul_mod_right] at h1
        exact absurd ⟨hcsz, hS1⟩ h1
    · simp only [Dim.allunit, List.all_eq_true, List.mem_range, beq_iff_eq, not_forall] at hda
      obtain ⟨o, ho, hne⟩ := hda
      refine ⟨o, ?_, gain o ?_⟩
      · rw [tot_cons]
        have : d.cnt * 1 ≤ d.cnt * tot R := Nat.mul_le_mul_left _ htR
        omega
      · rw [Nat.mod_eq_of_lt ho]
        exact fun h => hne h.1

/-! ## Right at every entry -/

/-- The loop, entered at position `m` of the dimensions `L` with `c` rows claimed, claims `c + e`
rows, and they are a run; more than one row only if the inner dimensions are whole chunks (`ex`). -/
def Arrive (ex : Bool) (stop c P S : Nat) (L : List Dim) (m : Nat) : Prop :=
  ∃ adv e offs, walk .debug stop c adv (P * (m + c)) (lanesAt S L m)
      = ok ⟨offs, adv + e * P, P * (m + c + e)⟩ ∧
    m + c + e ≤ tot L ∧ (m + c + e < tot L → offs = digits L (m + c + e)) ∧ Run L m (c + e) ∧
    (1 < c + e → ex = true)

/-- If the loop is right in the dimensions `d :: R` and goes on to `R`, it is right there. -/
theorem descend {d : Dim} {R : List Dim} (hd : DimOk d) (hR : ∀ x ∈ R, DimOk x)
    {ex : Bool} {stop P S m c e c' adv : Nat} (hP : 0 < P) {r : WalkOut} {offs : List Nat}
    (hle : m + c + e ≤ tot (d :: R))
    (hdig : m + c + e < tot (d :: R) → offs = digits (d :: R) (m + c + e))
    (hrun : Run (d :: R) m (c + e)) (hex : 1 < c + e → ex = true) (hc' : 0 < c')
    (hw : walk .debug stop c' adv (P * d.cnt * (m / d.cnt + c')) (lanesAt S R (m / d.cnt)) = ok r)
    (hoffs : 0 :: r.offs = offs) (hsoff : r.soff = P * (m + c + e)) :
    Arrive (ex && d.exact) stop c' (P * d.cnt) S R (m / d.cnt) := by
  have hcnt := hd.cnt
  have htR := tot_pos hR
  have hdm := Nat.div_add_mod m d.cnt
  have ho : m % d.cnt < d.cnt := Nat.mod_lt _ hcnt
  obtain ⟨t, ht1, ht2⟩ := walk_mono hR hw
  -- the end is at the end of a row
  have hmod : (m + c + e) % d.cnt = 0 := by
    rcases Nat.lt_or_ge (m + c + e) (tot (d :: R)) with h | h
    · have := hdig h
      rw [← hoffs, digits] at this
      exact (List.cons.inj this).1.symm
    · rw [show m + c + e = tot (d :: R) by omega, tot_cons, Nat.mul_mod_right]
  have hX : m + c + e = d.cnt * ((m + c + e) / d.cnt) := by
    have := Nat.div_add_mod (m + c + e) d.cnt
    omega
  generalize hq : (m + c + e) / d.cnt = q at hX
  generalize hrr : m / d.cnt = r0 at *
  have hge : r0 + c' ≤ q := by
    have h1 : P * d.cnt * (r0 + c') ≤ P * (m + c + e) := by rw [← hsoff, ht2]; omega
    rw [hX, ← Nat.mul_assoc] at h1
    exact Nat.le_of_mul_le_mul_left h1 (Nat.mul_pos hP hcnt)
  obtain ⟨e', he'⟩ := Nat.exists_eq_add_of_le hge
  subst he'
  have hte : t = e' * (P * d.cnt) := by
    have h1 : P * d.cnt * (r0 + c') + t = P * d.cnt * (r0 + c' + e') := by
      rw [← ht2, hsoff, hX, Nat.mul_assoc]
    rw [Nat.mul_add (P * d.cnt) (r0 + c') e'] at h1
    rw [Nat.mul_comm]
    omega
  have hqt : r0 + c' + e' ≤ tot R := by
    rw [hX, tot_cons] at hle
    exact Nat.le_of_mul_le_mul_left hle hcnt
  have hcross : 1 < c' + e' → d.exact = true ∧ Run R r0 (c' + e') ∧ 1 < c + e := by
    intro hb
    have hlt : d.cnt * (r0 + (c' + e' - 1)) < m + (c + e) := by
      rw [← Nat.add_assoc, hX]
      exact Nat.mul_lt_mul_of_pos_left (by omega) hcnt
    have := run_cross hd hrun (b := c' + e' - 1) (by omega) (by rw [hrr]; exact hlt)
    rw [hrr, Nat.sub_add_cancel (by omega)] at this
    refine ⟨this.1, this.2, ?_⟩
    have h2 : d.cnt * (r0 + 2) ≤ d.cnt * (r0 + c' + e') := Nat.mul_le_mul_left _ (by omega)
    rw [Nat.mul_add] at h2
    omega
  refine ⟨adv, e', r.offs, ?_, hqt, ?_, ?_, ?_⟩
  · rw [hw]
    congr 1
    rw [Nat.mul_assoc, ← hX, ← hsoff, ← hte, ← ht1]
  · intro h
    have hlt : m + c + e < tot (d :: R) := by
      rw [hX, tot_cons]; exact Nat.mul_lt_mul_of_pos_left h hcnt
    have := hdig hlt
    rw [← hoffs, digits, hq] at this
    exact (List.cons.inj this).2
  · rcases Nat.lt_or_ge 1 (c' + e') with h | h
    · exact (hcross h).2.1
    · rw [show c' + e' = 1 by omega]
      exact run_one _ _
  · intro h
    rw [hex (hcross h).2.2, (hcross h).1]; rfl

/-- Outside dimensions walked completely: `okFrom` is needed. -/
theorem need_outer (stop : Nat) (L : List Dim) (hL : ∀ d ∈ L, DimOk d) (ex al : Bool) (P S : Nat)
    (hP : 0 < P) (hS : 0 < S) (hS1 : S ≠ 1) (hstop : stop = P * tot L) (hal : al = true → ex = false)
    (hex : ex = true → S = P)
    (h : ∀ m, m + 1 < tot L → (al = true ∨ Reach L m) → Arrive ex stop 1 P S L m) :
    okFrom ex al L = true := by
  induction L generalizing ex al P S with
  | nil => rfl
  | cons d R ih =>
    have hd := hL d (by simp)
    have hR : ∀ x ∈ R, DimOk x := fun x hx => hL x (by simp [hx])
    have hcnt := hd.cnt
    have htR := tot_pos hR
    have htd := tot_cons d R
    have hS' : S * d.cs ≠ 1 := fun h => hS1 (Nat.eq_one_of_mul_eq_one_right h)
    have hPc : 0 < P * d.cnt := Nat.mul_pos hP hcnt
    have hSc : 0 < S * d.cs := Nat.mul_pos hS hd.cs
    have hex' : (ex && d.exact) = true → S * d.cs = P * d.cnt := by
      intro h
      simp only [Bool.and_eq_true, Dim.exact, beq_iff_eq] at h
      rw [hex h.1, h.2.2]
    have hstop' : stop = P * d.cnt * tot R := by rw [hstop, htd, Nat.mul_assoc]
    rw [okFrom, Bool.or_eq_true]
    by_cases ht : tot (d :: R) = 1
    · left; simpa using ht
    right
    rw [List.all_eq_true]
    intro o ho
    rw [List.mem_range] at ho
    obtain ⟨f1, f2, f3, f4, f5, f6, f7⟩ := dim_facts hd ho
    have hfit := hd.fit
    by_cases hs : (al || d.segStart o) = true
    swap
    · rw [Bool.not_eq_true] at hs; rw [hs]; rfl
    by_cases hl : o + 1 = d.cnt ∧ tot R = 1
    · simp [hl.1, hl.2]
    rw [Bool.or_eq_true]
    right
    -- the loop at column `o` of row `r`
    have key : ∀ r, (al = true ∨ d.full = false ∨ Reach R r) → o + d.cnt * r + 1 < tot (d :: R) →
        Arrive ex stop 1 P S (d :: R) (o + d.cnt * r) ∧ (o + d.cnt * r) % d.cnt = o ∧
        (o + d.cnt * r) / d.cnt = r := by
      intro r hr hlt
      have e1 : (o + d.cnt * r) % d.cnt = o := by
        rw [Nat.add_mul_mod_self_left, Nat.mod_eq_of_lt ho]
      have e2 : (o + d.cnt * r) / d.cnt = r := by
        rw [Nat.add_mul_div_left _ _ hcnt, Nat.div_eq_of_lt ho, Nat.zero_add]
      refine ⟨h _ hlt ?_, e1, e2⟩
      by_cases ha : al = true
      · exact .inl ha
      · right
        refine ⟨?_, fun hf => ?_⟩
        · rw [e1]; simpa [ha] using hs
        · rw [e2]
          rcases hr with hr | hr | hr
          · exact absurd hr ha
          · rw [hf] at hr; cases hr
          · exact hr
    have rowlt : ∀ r, r + 1 < tot R → o + d.cnt * r + 1 < tot (d :: R) := by
      intro r hr
      have : d.cnt * (r + 1 + 1) ≤ d.cnt * tot R := Nat.mul_le_mul_left _ hr
      rw [htd]
      simp only [Nat.mul_add] at this
      omega
    by_cases hc1 : d.csz o = 1
    · rw [if_pos (by simpa using hc1)]
      by_cases hlast : o + 1 = d.cnt
      · rw [if_pos (by simpa using hlast)]
        refine ih hR (ex && d.exact) (al || !d.full) (P * d.cnt) (S * d.cs) hPc hSc hS' hstop' ?_
          hex' ?_
        · intro ha
          rw [Bool.or_eq_true] at ha
          rcases ha with ha | ha
          · rw [hal ha]; rfl
          · cases hx : d.exact
            · simp
            · rw [exact_full hd hx] at ha; cases ha
        · intro r hr hreach
          obtain ⟨⟨adv, e, offs, hw, hle, hdig, hrun, hxe⟩, e1, e2⟩ := key r (by
            rcases hreach with h | h
            · rw [Bool.or_eq_true] at h
              rcases h with h | h
              · exact .inl h
              · exact .inr (.inl (by simpa using h))
            · exact .inr (.inr h)) (rowlt r hr)
          rcases walk_inv hd hw with ⟨-, -, r', h1, h2⟩ | ⟨h1, -⟩
          · rw [e1, hlast, Nat.div_self hcnt] at h1
            rw [e1, hlast, Nat.mod_self] at h2
            have hsoff : P * (o + d.cnt * r + 1) = P * d.cnt * ((o + d.cnt * r) / d.cnt + 1) := by
              rw [e2, Nat.mul_assoc, Nat.mul_add d.cnt]
              congr 1; omega
            rw [hsoff] at h1
            have := descend hd hR hP hle hdig hrun hxe (by omega) h1 (WalkOut.mk.inj h2).1.symm
              (WalkOut.mk.inj h2).2.2.symm
            rwa [e2] at this
          · rw [e1] at h1; exact absurd ⟨hc1, hS1⟩ h1
      · rw [if_neg (by simpa using hlast)]
        by_contra hall
        have hall : ¬ ∀ x ∈ R, x.allunit = true := by simpa using hall
        obtain ⟨r, hr, hadv⟩ := walk_zero_pos (stop := stop) hR hall hSc
        have hnf : d.full = false := by
          cases hf : d.full
          · rfl
          · have := (full_iff hd ho).1 hf
            omega
        have hlt : o + d.cnt * r + 1 < tot (d :: R) := by
          have : d.cnt * (r + 1) ≤ d.cnt * tot R := Nat.mul_le_mul_left _ hr
          rw [htd]
          simp only [Nat.mul_add] at this
          omega
        obtain ⟨⟨adv, e, offs, hw, hle, hdig, hrun, hxe⟩, e1, e2⟩ := key r (.inr (.inl hnf)) hlt
        rcases walk_inv hd hw with ⟨-, -, r', h1, h2⟩ | ⟨h1, -⟩
        · rw [e1, Nat.div_eq_of_lt (by omega), e2] at h1
          have h3 := hadv _ _ _ h1
          have h4 := (WalkOut.mk.inj h2).2.1
          have he : 0 < e := by
            rcases Nat.eq_zero_or_pos e with h | h
            · rw [h] at h4; omega
            · exact h
          have := run_in_row hd (hrun.mono (b := 2) (by omega)) (by omega) (by rw [e1]; omega)
          rw [e1] at this
          omega
        · rw [e1] at h1; exact absurd ⟨hc1, hS1⟩ h1
    · rw [if_neg (by simpa using hc1)]
      have h0 : o + d.cnt * 0 + 1 < tot (d :: R) := by
        rw [htd]
        rcases Nat.lt_or_ge (o + 1) d.cnt with h | h
        · have : d.cnt * 1 ≤ d.cnt * tot R := Nat.mul_le_mul_left _ htR
          omega
        · have : d.cnt * 2 ≤ d.cnt * tot R := Nat.mul_le_mul_left _ (by
            have : tot R ≠ 1 := fun h' => hl ⟨by omega, h'⟩
            omega)
          omega
      -- what the first row shows
      have hfirst : o + 1 < d.cnt ∧ (ex = true ∨ o + 1 = d.cce o) := by
        obtain ⟨⟨adv, e, offs, hw, hle, hdig, hrun, hxe⟩, e1, e2⟩ := key 0 (.inr (.inr (reach_zero R))) h0
        rcases walk_inv hd hw with ⟨h1, -⟩ | ⟨-, diff, hcur, hdiff, h1⟩
        · rw [e1] at h1; exact absurd h1 hc1
        have hge : diff ≤ e * P := by
          rcases h1 with ⟨-, -, r', h1, h2⟩ | ⟨-, -, rest, h2⟩
          · obtain ⟨t, a, b⟩ := walk_mono hR h1
            have := (WalkOut.mk.inj h2).2.1
            omega
          · have := (WalkOut.mk.inj h2).2.1
            omega
        have hpos : 0 < diff → 0 < e := by
          intro hd0
          rcases Nat.eq_zero_or_pos e with h | h
          · rw [h] at hge; omega
          · exact h
        rw [e1] at hdiff
        have hlt : o + 1 < d.cnt := by
          by_contra hnlt
          have hlast : o + 1 = d.cnt := by omega
          rw [hlast, Nat.mod_self] at hdiff
          have he := hpos (by rw [hdiff]; exact Nat.mul_pos (by omega) hS)
          have hx := (run_cross hd hrun (b := 1) (by omega) (by rw [e2]; omega)).1
          have hf := exact_full hd hx
          by_cases ha : al = true
          · rw [hal ha] at hxe
            exact absurd (hxe (by omega)) (by simp)
          · have := seg_full hd hf ho (by simpa [ha] using hs)
            have := (full_iff hd ho).1 hf
            omega
        refine ⟨hlt, ?_⟩
        rw [Nat.mod_eq_of_lt hlt] at hdiff
        by_cases hz : min d.cnt (d.cce o) - (o + 1) = 0
        · right; omega
        · left
          exact hxe (by
            have := hpos (by rw [hdiff]; exact Nat.mul_pos (by omega) hS)
            omega)
      simp only [Bool.and_eq_true, decide_eq_true_eq, Bool.or_eq_true, beq_iff_eq,
        Bool.not_eq_true']
      refine ⟨hfirst, ?_⟩
      by_cases hf : d.full = true
      swap
      · left; simpa using hf
      right
      have hfi := (full_iff hd ho).1 hf
      have hexT : ex = true := by
        rcases hfirst.2 with h | h
        · exact h
        · omega
      have hSP := hex hexT
      refine ih hR (ex && d.exact) al (P * d.cnt) (S * d.cs) hPc hSc hS' hstop' ?_ hex' ?_
      · intro ha; rw [hal ha]; rfl
      · intro r hr hreach
        obtain ⟨⟨adv, e, offs, hw, hle, hdig, hrun, hxe⟩, e1, e2⟩ := key r (by
          rcases hreach with h | h
          · exact .inl h
          · exact .inr (.inr h)) (rowlt r hr)
        rcases walk_inv hd hw with ⟨h1, -⟩ | ⟨-, diff, hcur, hdiff, h1⟩
        · rw [e1] at h1; exact absurd h1 hc1
        rw [e1, Nat.mod_eq_of_lt hfirst.1, ← hfi.2, Nat.min_self, hSP] at hdiff
        have hsoff : P * (o + d.cnt * r + 1) + diff
            = P * d.cnt * ((o + d.cnt * r) / d.cnt + 1) := by
          rw [e2, hdiff, Nat.mul_comm (d.cnt - (o + 1)) P, ← Nat.mul_add, Nat.mul_assoc,
            Nat.mul_add d.cnt]
          congr 1; omega
        rcases h1 with ⟨-, hlt, r', h1, h2⟩ | ⟨hno, -⟩
        · rw [e1, Nat.div_eq_of_lt hfirst.1, hsoff] at h1
          have := descend hd hR hP hle hdig hrun hxe (by omega) h1 (WalkOut.mk.inj h2).1.symm
            (WalkOut.mk.inj h2).2.2.symm
          rwa [e2] at this
        · exfalso
          apply hno
          refine ⟨hf, ?_⟩
          rw [hsoff, hstop', e2]
          exact Nat.mul_lt_mul_of_pos_left hr hPc

end Hidefix.Proofs
