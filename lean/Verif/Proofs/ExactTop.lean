import Verif.Proofs.ExactWalk

/-!
# The converse for one call of `next`
-/

namespace Hidefix.Proofs
open Hidefix Hidefix.Spec Outcome

/-- A run of whole rows is a run of rows. -/
theorem run_down {d : Dim} {R : List Dim} (hd : DimOk d) {r k : Nat}
    (h : Run (d :: R) (d.cnt * r) (d.cnt * k)) : Run R r k := by
  have hcnt := hd.cnt
  rcases Nat.lt_or_ge 1 k with hk | hk
  · have := (run_cross hd h (b := k - 1) (by omega) (by
      rw [Nat.mul_div_cancel_left _ hcnt, ← Nat.mul_add]
      exact Nat.mul_lt_mul_of_pos_left (by omega) hcnt)).2
    rwa [Nat.mul_div_cancel_left _ hcnt, Nat.sub_add_cancel (by omega)] at this
  · exact (run_one R r).mono hk

/-- Behind the leading unit dimensions: `okRun` is needed. -/
theorem need_run (stop : Nat) (L : List Dim) (hL : ∀ d ∈ L, DimOk d) (c P : Nat) (hP : 0 < P)
    (hne : P = 1 → ∀ d R, L = d :: R → ¬ d.unit = true) (hc : P ≠ 1 → 2 ≤ c)
    (hstop : stop = P * tot L)
    (h1 : ∀ m, m + c < tot L → Reach L m → Arrive true stop c P P L m)
    (h2 : ∀ m, m < tot L → tot L ≤ m + c → Reach L m → Run L m (tot L - m)) :
    okRun .debug c L = true := by
  induction L generalizing c P with
  | nil => rfl
  | cons d R ih =>
    have hd := hL d (by simp)
    have hR : ∀ x ∈ R, DimOk x := fun x hx => hL x (by simp [hx])
    have hcnt := hd.cnt
    have hcs := hd.cs
    have hfit := hd.fit
    have htR := tot_pos hR
    have htd := tot_cons d R
    have hPc : 0 < P * d.cnt := Nat.mul_pos hP hcnt
    have hstop' : stop = P * d.cnt * tot R := by rw [hstop, htd, Nat.mul_assoc]
    obtain ⟨f1, f2, f3, f4, f5, f6, f7⟩ := dim_facts hd hcnt
    rw [okRun]
    by_cases hu : d.unit = true
    · rw [if_pos hu]
      obtain ⟨hcs1, hcnt1⟩ := unit_iff.1 hu
      have hP1 : P ≠ 1 := fun h => hne h d R rfl hu
      have hc2 := hc hP1
      have hcsz : d.csz 0 = 1 := by rw [hcs1] at f2 f4; omega
      have hreach : ∀ m, Reach R m → Reach (d :: R) m := fun m hm =>
        ⟨by simp [hcnt1, Nat.mod_one, Dim.segStart], fun _ => by rw [hcnt1, Nat.div_one]; exact hm⟩
      have htt : tot (d :: R) = tot R := by rw [htd, hcnt1, Nat.one_mul]
      refine ih hR c P hP (fun h => absurd h hP1) hc (by rw [hstop, htt]) ?_ ?_
      · intro m hm hr
        obtain ⟨adv, e, offs, hw, hle, hdig, hrun, hxe⟩ := h1 m (by omega) (hreach m hr)
        rcases walk_inv hd hw with ⟨-, -, r', g1, g2⟩ | ⟨g1, -⟩
        · rw [hcnt1, Nat.mod_one, Nat.zero_add, Nat.div_one, Nat.div_one, hcs1, Nat.mul_one] at g1
          rw [hcnt1, Nat.mod_one] at g2
          have := descend (S := P) (c' := c) hd hR hP hle hdig hrun hxe (by omega)
            (by rw [hcnt1, Nat.mul_one, Nat.div_one]; exact g1) (WalkOut.mk.inj g2).1.symm
            (WalkOut.mk.inj g2).2.2.symm
          rwa [unit_exact hu, hcnt1, Nat.mul_one, Nat.div_one] at this
        · rw [hcnt1, Nat.mod_one] at g1
          exact absurd ⟨hcsz, hP1⟩ g1
      · intro m hm hmc hr
        have := h2 m (by omega) (by omega) (hreach m hr)
        rw [htt] at this
        have := run_down (r := m) (k := tot R - m) hd (by rw [hcnt1, Nat.one_mul, Nat.one_mul]; exact this)
        exact this
    rw [if_neg hu]
    by_cases hx : d.exact = true ∧ d.cnt ≤ c
    · rw [if_pos (by simpa using hx)]
      have hf := exact_full hd hx.1
      obtain ⟨hi1, hi2⟩ := (full_iff hd hcnt).1 hf
      have hcx : d.cnt = d.cs := by
        have := hx.1
        simp only [Dim.exact, Bool.and_eq_true, beq_iff_eq] at this
        exact this.2
      have hcs2 : d.cs ≠ 1 := fun h => hu (unit_iff.2 ⟨h, by omega⟩)
      have hcsz : d.csz 0 ≠ 1 := by omega
      have hPn : P * d.cnt ≠ 1 := by
        intro h
        have := Nat.eq_one_of_mul_eq_one_left h
        omega
      have hcge : 1 ≤ c / d.cnt := (Nat.one_le_div_iff hcnt).2 hx.2
      have hcm := Nat.mod_lt c hcnt
      have hdc := Nat.div_add_mod c d.cnt
      have hreach : ∀ r, Reach R r → Reach (d :: R) (d.cnt * r) := fun r hr =>
        ⟨by simp [Dim.segStart], fun _ => by rw [Nat.mul_div_cancel_left _ hcnt]; exact hr⟩
      have em : ∀ r, d.cnt * r + c + (d.cnt - c % d.cnt) = d.cnt * (r + (c / d.cnt + 1)) := by
        intro r
        simp only [Nat.mul_add]; omega
      have hsoff : ∀ r, P * (d.cnt * r + c) + (d.cnt - c % d.cnt) * P
          = P * d.cnt * (r + (c / d.cnt + 1)) := by
        intro r
        rw [Nat.mul_assoc, ← em r]; ring
      -- the loop at the start of row `r`
      have step : ∀ r, d.cnt * r + c < tot (d :: R) → Reach R r →
          (r + (c / d.cnt + 1) < tot R →
            Arrive true stop (c / d.cnt + 1) (P * d.cnt) (P * d.cnt) R r) ∧
          (tot R ≤ r + (c / d.cnt + 1) → Run (d :: R) (d.cnt * r) (d.cnt * (tot R - r))) := by
        intro r hlt hr
        obtain ⟨adv, e, offs, hw, hle, hdig, hrun, hxe⟩ := h1 _ hlt (hreach r hr)
        rcases walk_inv hd hw with ⟨g1, -⟩ | ⟨-, diff, hcur, hdiff, g1⟩
        · rw [Nat.mul_mod_right] at g1; exact absurd g1 hcsz
        rw [Nat.mul_mod_right, Nat.zero_add, ← hi2, Nat.min_self] at hdiff
        rw [hdiff, hsoff r] at g1
        refine ⟨fun hlt => ?_, fun hge => ?_⟩
        · rcases g1 with ⟨-, -, r', g1, g2⟩ | ⟨hno, -⟩
          · rw [Nat.mul_mod_right, Nat.zero_add, ← hcx, Nat.mul_div_cancel_left _ hcnt] at g1
            have := descend (S := P * d.cnt) (c' := c / d.cnt + 1) hd hR hP hle hdig hrun hxe (by omega)
              (by rw [Nat.mul_div_cancel_left _ hcnt]; exact g1) (WalkOut.mk.inj g2).1.symm
              (WalkOut.mk.inj g2).2.2.symm
            rwa [hx.1, Nat.mul_div_cancel_left _ hcnt] at this
          · exfalso
            apply hno
            refine ⟨hf, ?_⟩
            rw [hstop']
            exact Nat.mul_lt_mul_of_pos_left hlt hPc
        · have hge' : stop ≤ P * d.cnt * (r + (c / d.cnt + 1)) := by
            rw [hstop']; exact Nat.mul_le_mul_left _ hge
          rcases g1 with ⟨-, hlt', -⟩ | ⟨-, -, rest, g2⟩
          · omega
          · have g3 := (WalkOut.mk.inj g2).2.2
            have : tot (d :: R) ≤ d.cnt * r + c + e := by
              refine Nat.le_of_mul_le_mul_left (c := P) ?_ hP
              rw [← hstop, g3]; exact hge'
            have e1 : d.cnt * r + c + e = d.cnt * tot R := by omega
            rw [Nat.mul_sub, show d.cnt * tot R - d.cnt * r = c + e by omega]
            exact hrun
      refine ih hR (c / d.cnt + 1) (P * d.cnt) hPc (fun h => absurd h hPn) (fun _ => by omega) hstop' ?_ ?_
      · intro r hr hrr
        refine (step r ?_ hrr).1 hr
        have : d.cnt * (r + (c / d.cnt + 1)) ≤ d.cnt * tot R := Nat.mul_le_mul_left _ (by omega)
        have := em r
        omega
      · intro r hr hge hrr
        apply run_down hd
        rcases Nat.lt_or_ge (d.cnt * r + c) (tot (d :: R)) with hlt | hge'
        · exact (step r hlt hrr).2 hge
        · have := h2 (d.cnt * r) (by rw [htd]; exact Nat.mul_lt_mul_of_pos_left hr hcnt) hge' (hreach r hrr)
          rwa [htd, ← Nat.mul_sub] at this
    rw [if_neg (by simpa using hx)]
    -- the rows do not fill this dimension
    have hrow : ∀ o, o < d.cnt → d.segStart o = true →
        (o + c < d.cnt ∧ o + c ≤ d.cce o) ∨ (tot R = 1 ∧ d.cnt ≤ d.cce o) := by
      intro o ho hs
      obtain ⟨g1, g2, g3, g4, g5, g6, g7⟩ := dim_facts hd ho
      have e1 : o % d.cnt = o := Nat.mod_eq_of_lt ho
      have e2 : o / d.cnt = 0 := Nat.div_eq_of_lt ho
      have hreach : Reach (d :: R) o := ⟨by rw [e1]; exact hs, fun _ => by rw [e2]; exact reach_zero R⟩
      have hcge : d.cnt * 1 ≤ d.cnt * tot R := Nat.mul_le_mul_left _ htR
      rcases Nat.lt_or_ge (o + c) d.cnt with hlt | hge
      · left
        refine ⟨hlt, ?_⟩
        rcases Nat.eq_zero_or_pos c with rfl | hc0
        · omega
        obtain ⟨adv, e, offs, hw, hle, hdig, hrun, hxe⟩ := h1 o (by omega) hreach
        have := run_in_row hd (hrun.mono (b := c) (by omega)) hc0 (by rw [e1]; omega)
        rwa [e1] at this
      · right
        by_cases ht : tot R = 1
        · refine ⟨ht, ?_⟩
          have htt : tot (d :: R) = d.cnt := by rw [htd, ht, Nat.mul_one]
          have := h2 o (by omega) (by omega) hreach
          rw [htt] at this
          have := run_in_row hd this (by omega) (by rw [e1]; omega)
          rw [e1] at this
          omega
        · exfalso
          have hge2 : d.cnt * 2 ≤ d.cnt * tot R := Nat.mul_le_mul_left _ (by omega)
          have hcross : ∀ k, Run (d :: R) o k → d.cnt < o + k → False := by
            intro k hk hlt
            have hex := (run_cross hd hk (b := 1) (by omega) (by rw [e2]; omega)).1
            have := seg_full hd (exact_full hd hex) ho hs
            exact hx ⟨hex, by omega⟩
          rcases Nat.lt_or_ge (o + c) (tot (d :: R)) with hlt | hge'
          · obtain ⟨adv, e, offs, hw, hle, hdig, hrun, hxe⟩ := h1 o hlt hreach
            refine hcross _ hrun ?_
            rcases Nat.lt_or_ge d.cnt (o + c) with h | h
            · omega
            have hlast : o + c = d.cnt := by omega
            rcases walk_inv hd hw with ⟨q1, q2, -⟩ | ⟨-, diff, hcur, hdiff, q1⟩
            · rw [e1] at q1
              have := hc q2
              have := run_in_row hd (hrun.mono (b := c) (by omega)) (by omega) (by rw [e1]; omega)
              rw [e1] at this
              omega
            · rw [e1, hlast, Nat.mod_self] at hdiff
              have hpos : 0 < diff := by rw [hdiff]; exact Nat.mul_pos (by omega) hP
              have : diff ≤ e * P := by
                rcases q1 with ⟨-, -, r', q1, q2⟩ | ⟨-, -, rest, q2⟩
                · obtain ⟨t, a, b⟩ := walk_mono hR q1
                  have := (WalkOut.mk.inj q2).2.1
                  omega
                · have := (WalkOut.mk.inj q2).2.1
                  omega
              have : 0 < e := by
                rcases Nat.eq_zero_or_pos e with h | h
                · rw [h] at this; omega
                · exact h
              omega
          · exact hcross _ (h2 o (by omega) hge' hreach) (by omega)
    simp only [Bool.and_eq_true, List.all_eq_true, List.mem_range, Bool.or_eq_true,
      Bool.not_eq_true', decide_eq_true_eq, beq_iff_eq]
    refine ⟨fun o ho => ?_, ?_⟩
    · by_cases hs : d.segStart o = true
      · rcases hrow o ho hs with h | h
        · exact .inl (.inr ⟨h.1, .inr h.2⟩)
        · exact .inr h
      · exact .inl (.inl (by simpa using hs))
    by_cases hf : d.full = true
    swap
    · exact .inl (.inl (by simpa using hf))
    by_cases ht : tot R = 1
    · exact .inl (.inr ht)
    right
    have hclt : c < d.cnt := by
      rcases hrow 0 hcnt (by simp [Dim.segStart]) with h | h
      · omega
      · exact absurd h.1 ht
    obtain ⟨hi1, hi2⟩ := (full_iff hd hcnt).1 hf
    have hskip : ¬ (d.csz 0 = 1 ∧ P ≠ 1) := by
      rintro ⟨q1, q2⟩
      have := hc q2
      omega
    have hS1 : P * d.cs ≠ 1 := by
      intro h
      have q1 := Nat.eq_one_of_mul_eq_one_left h
      rw [q1] at f5
      exact hu (unit_iff.2 ⟨q1, by omega⟩)
    refine need_outer stop R hR d.exact false (P * d.cnt) (P * d.cs) hPc (Nat.mul_pos hP hcs) hS1
      hstop' (by simp) ?_ ?_
    · intro h
      simp only [Dim.exact, Bool.and_eq_true, beq_iff_eq] at h
      rw [h.2]
    · intro r hr hrr
      have hrr := hrr.resolve_left (by simp)
      have hreach : Reach (d :: R) (d.cnt * r) :=
        ⟨by simp [Dim.segStart], fun _ => by rw [Nat.mul_div_cancel_left _ hcnt]; exact hrr⟩
      have hlt : d.cnt * r + c < tot (d :: R) := by
        have : d.cnt * (r + 1) ≤ d.cnt * tot R := Nat.mul_le_mul_left _ (by omega)
        rw [Nat.mul_add] at this
        omega
      obtain ⟨adv, e, offs, hw, hle, hdig, hrun, hxe⟩ := h1 _ hlt hreach
      rcases walk_inv hd hw with ⟨g1, g2, -⟩ | ⟨-, diff, hcur, hdiff, g1⟩
      · rw [Nat.mul_mod_right] at g1; exact absurd ⟨g1, g2⟩ hskip
      rw [Nat.mul_mod_right, Nat.zero_add, ← hi2, Nat.min_self, Nat.mod_eq_of_lt hclt] at hdiff
      have hsoff : P * (d.cnt * r + c) + diff = P * d.cnt * (r + 1) := by
        rw [hdiff, Nat.mul_comm (d.cnt - c) P, ← Nat.mul_add, Nat.mul_assoc, Nat.mul_add d.cnt]
        congr 1; omega
      rw [hsoff] at g1
      rcases g1 with ⟨-, -, r', g1, g2⟩ | ⟨hno, -⟩
      · rw [Nat.mul_mod_right, Nat.zero_add, Nat.div_eq_of_lt hclt, Nat.mul_div_cancel_left _ hcnt] at g1
        have := descend (S := P * d.cs) (c' := 1) hd hR hP hle hdig hrun hxe (by omega)
          (by rw [Nat.mul_div_cancel_left _ hcnt]; exact g1) (WalkOut.mk.inj g2).1.symm
          (WalkOut.mk.inj g2).2.2.symm
        rwa [Bool.true_and, Nat.mul_div_cancel_left _ hcnt] at this
      · exfalso
        apply hno
        refine ⟨hf, ?_⟩
        rw [hstop']
        exact Nat.mul_lt_mul_of_pos_left hr hPc

/-- Behind `k` leading unit dimensions: `goodFrom` is needed. -/
theorem need_units (stop : Nat) (L : List Dim) (hL : ∀ d ∈ L, DimOk d) (k : Nat)
    (hstop : stop = tot L)
    (h1 : ∀ m, m + k < tot L → Reach L m → Arrive true stop k 1 1 L m)
    (h2 : ∀ m, m < tot L → tot L ≤ m + k → Reach L m → Run L m (tot L - m)) :
    goodFrom .debug k L = true := by
  induction L generalizing k with
  | nil => rfl
  | cons d R ih =>
    have hd := hL d (by simp)
    have hR : ∀ x ∈ R, DimOk x := fun x hx => hL x (by simp [hx])
    have hcnt := hd.cnt
    have hfit := hd.fit
    rw [goodFrom]
    by_cases hu : d.unit = true
    · rw [if_pos hu]
      obtain ⟨hcs1, hcnt1⟩ := unit_iff.1 hu
      have hf := exact_full hd (unit_exact hu)
      obtain ⟨hi1, hi2⟩ := (full_iff hd hcnt).1 hf
      have hreach : ∀ m, Reach R m → Reach (d :: R) m := fun m hm =>
        ⟨by simp [hcnt1, Nat.mod_one, Dim.segStart], fun _ => by rw [hcnt1, Nat.div_one]; exact hm⟩
      have htt : tot (d :: R) = tot R := by rw [tot_cons, hcnt1, Nat.one_mul]
      have step : ∀ m, m + k < tot R → Reach R m →
          (m + (k + 1) < tot R → Arrive true stop (k + 1) 1 1 R m) ∧
          (tot R ≤ m + (k + 1) → Run (d :: R) m (k + 1)) := by
        intro m hm hr
        obtain ⟨adv, e, offs, hw, hle, hdig, hrun, hxe⟩ := h1 m (by omega) (hreach m hr)
        rcases walk_inv hd hw with ⟨-, g2, -⟩ | ⟨-, diff, hcur, hdiff, g1⟩
        · exact absurd rfl g2
        have hm0 : m % d.cnt = 0 := by rw [hcnt1, Nat.mod_one]
        rw [hm0, ← hi2, Nat.min_self] at hdiff
        rw [hcnt1, Nat.mod_one] at hdiff
        have hd1 : diff = 1 := by omega
        rw [hm0, hd1, hcs1, hcnt1] at g1
        simp only [Nat.zero_add, Nat.div_one, Nat.one_mul] at g1
        refine ⟨fun hlt => ?_, fun hge => ?_⟩
        · rcases g1 with ⟨-, -, r', g1, g2⟩ | ⟨hno, -⟩
          · have := descend (S := 1) (c' := k + 1) hd hR Nat.one_pos hle hdig hrun hxe (by omega)
              (by rw [hcnt1, Nat.mul_one, Nat.div_one, Nat.one_mul, ← Nat.add_assoc]; exact g1)
              (WalkOut.mk.inj g2).1.symm
              (by have := (WalkOut.mk.inj g2).2.2.symm; omega)
            rwa [unit_exact hu, hcnt1, Nat.mul_one, Nat.div_one] at this
          · exact absurd ⟨hf, by omega⟩ hno
        · rcases g1 with ⟨-, hlt, -⟩ | ⟨-, -, rest, g2⟩
          · omega
          · have := (WalkOut.mk.inj g2).2.2
            exact hrun.mono (by omega)
      have down : ∀ m a, Run (d :: R) m a → Run R m a := by
        intro m a h
        exact run_down (r := m) (k := a) hd (by rw [hcnt1, Nat.one_mul, Nat.one_mul]; exact h)
      refine ih hR (k + 1) (by rw [hstop, htt]) (fun m hm hr => (step m (by omega) hr).1 hm) ?_
      intro m hm hge hr
      apply down
      rcases Nat.lt_or_ge (m + k) (tot R) with hlt | hge'
      · rw [show tot R - m = k + 1 by omega]
        exact (step m hlt hr).2 hge
      · have := h2 m (by omega) (by omega) (hreach m hr)
        rwa [htt] at this
    · rw [if_neg hu]
      refine need_run stop (d :: R) hL k 1 Nat.one_pos ?_ (fun h => absurd rfl h) (by omega) h1 h2
      rintro - d' R' h
      cases h; exact hu

/-- One right call of `next`. -/
def StepOk (L : List Dim) (m : Nat) : Prop :=
  ∃ a offs, 0 < a ∧ walk .debug (tot L) 0 0 m (lanesAt 1 L m) = ok ⟨offs, a, m + a⟩ ∧
    m + a ≤ tot L ∧ (m + a < tot L → offs = digits L (m + a)) ∧ Run L m a

/-- If `next` is right wherever a right iteration has to call it, the selection is good. -/
theorem good_of_steps (L : List Dim) (hL : ∀ d ∈ L, DimOk d)
    (h : ∀ m, m < tot L → Reach L m → StepOk L m) : good .debug L = true := by
  refine need_units (tot L) L hL 0 rfl ?_ ?_
  · intro m hm hr
    obtain ⟨a, offs, ha, hw, hle, hdig, hrun⟩ := h m hm hr
    refine ⟨0, a, offs, ?_, by omega, fun hlt => hdig (by omega), ?_, fun _ => rfl⟩
    · simpa using hw
    · simpa using hrun
  · intro m hm hge
    omega

end Hidefix.Proofs
