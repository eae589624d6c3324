import Verif.Proofs.RelWalk
import Verif.Proofs.ExactTop

/-!
# The converse for one call of `next` in a release build
-/

namespace Hidefix.Proofs
open Hidefix Hidefix.Spec Outcome

set_option maxHeartbeats 1000000 in
/-- Behind the leading unit dimensions: `okRun` is needed. -/
theorem need_runR (stop : Nat) (L : List Dim) (hL : ∀ d ∈ L, DimOk d) (c P : Nat) (hP : 0 < P)
    (hne : P = 1 → ∀ d R, L = d :: R → ¬ d.unit = true) (hc : P ≠ 1 → 2 ≤ c)
    (hstop : stop = P * tot L) (hroom : Room stop P L)
    (h1 : ∀ m, m + c < tot L → Reach L m → RtR true stop c P P L m)
    (h2 : ∀ m, m < tot L → tot L ≤ m + c → Reach L m → Run L m (tot L - m)) :
    okRun .release c L = true := by
  induction L generalizing c P with
  | nil => rfl
  | cons d R ih =>
    have hd := hL d (by simp)
    have hR : ∀ x ∈ R, DimOk x := fun x hx => hL x (by simp [hx])
    have hcnt := hd.cnt
    have hcs := hd.cs
    have hfit := hd.fit
    have htR := tot_pos hR
    have htd := tot_cons d R
    have hPc : 0 < P * d.cnt := Nat.mul_pos hP hcnt
    have hstop' : stop = P * d.cnt * tot R := by rw [hstop, htd, Nat.mul_assoc]
    have hts : tot (d :: R) ≤ stop := by rw [hstop]; exact Nat.le_mul_of_pos_left _ hP
    have hle' : ∀ m, m ≤ tot (d :: R) → P * m ≤ stop := fun m hm => by
      rw [hstop]; exact Nat.mul_le_mul_left _ hm
    have hlt' : ∀ m, m < tot (d :: R) → P * m < stop := fun m hm => by
      rw [hstop]; exact Nat.mul_lt_mul_of_pos_left hm hP
    have inv : ∀ {m adv w}, m + c < tot (d :: R) → w.soff ≤ stop →
        walk .release stop c adv (P * (m + c)) (lanesAt P (d :: R) m) = ok w → _ :=
      fun {m adv w} h1 h2 h3 => rwalk_inv hd hR hP hroom.1 (by omega) (by omega) (hlt' _ h1) h3 h2
    obtain ⟨f1, f2, f3, f4, f5, f6, f7⟩ := dim_facts hd hcnt
    rw [okRun]
    by_cases hu : d.unit = true
    · rw [if_pos hu]
      obtain ⟨hcs1, hcnt1⟩ := unit_iff.1 hu
      have hP1 : P ≠ 1 := fun h => hne h d R rfl hu
      have hc2 := hc hP1
      have hcsz : d.csz 0 = 1 := by rw [hcs1] at f2 f4; omega
      have hreach : ∀ m, Reach R m → Reach (d :: R) m := fun m hm =>
        ⟨by simp [hcnt1, Nat.mod_one, Dim.segStart], fun _ => by rw [hcnt1, Nat.div_one]; exact hm⟩
      have htt : tot (d :: R) = tot R := by rw [htd, hcnt1, Nat.one_mul]
      have hroom' : Room stop P R := by
        have := hroom.2
        rwa [hcs1, Nat.mul_one] at this
      refine ih hR c P hP (fun h => absurd h hP1) hc (by rw [hstop, htt]) hroom' ?_ ?_
      · intro m hm hr
        obtain ⟨adv, a, w, hw, hws, ha, hle, hdig, hrun, hxe⟩ := h1 m (by omega) (hreach m hr)
        rcases inv (by omega) (by rw [hws]; exact hle' _ hle) hw with ⟨-, -, r', g1, g2, g3⟩ | ⟨g1, -⟩
        · rw [hcnt1, Nat.mod_one, Nat.zero_add, Nat.div_one, Nat.div_one, hcs1, Nat.mul_one] at g1
          rw [hcnt1, Nat.mod_one] at g2
          have := descendR (S := P) (c' := c) (P := P) hd ha hle hdig hrun hxe
            (by rw [hcnt1, Nat.mul_one, Nat.div_one]; exact g1) g2 (g3.symm.trans hws)
          rwa [unit_exact hu, hcnt1, Nat.mul_one, Nat.div_one] at this
        · rw [hcnt1, Nat.mod_one] at g1
          exact absurd ⟨hcsz, hP1⟩ g1
      · intro m hm hmc hr
        have := h2 m (by omega) (by omega) (hreach m hr)
        rw [htt] at this
        have := run_down (r := m) (k := tot R - m) hd (by rw [hcnt1, Nat.one_mul, Nat.one_mul]; exact this)
        exact this
    rw [if_neg hu]
    by_cases hx : d.exact = true ∧ d.cnt ≤ c
    · rw [if_pos (by simpa using hx)]
      have hf := exact_full hd hx.1
      obtain ⟨hi1, hi2⟩ := (full_iff hd hcnt).1 hf
      have hcx : d.cnt = d.cs := by
        have := hx.1
        simp only [Dim.exact, Bool.and_eq_true, beq_iff_eq] at this
        exact this.2
      have hcs2 : d.cs ≠ 1 := fun h => hu (unit_iff.2 ⟨h, by omega⟩)
      have hcsz : d.csz 0 ≠ 1 := by omega
      have hPn : P * d.cnt ≠ 1 := by
        intro h
        have := Nat.eq_one_of_mul_eq_one_left h
        omega
      have hcge : 1 ≤ c / d.cnt := (Nat.one_le_div_iff hcnt).2 hx.2
      have hcm := Nat.mod_lt c hcnt
      have hdc := Nat.div_add_mod c d.cnt
      have hreach : ∀ r, Reach R r → Reach (d :: R) (d.cnt * r) := fun r hr =>
        ⟨by simp [Dim.segStart], fun _ => by rw [Nat.mul_div_cancel_left _ hcnt]; exact hr⟩
      have em : ∀ r, d.cnt * r + c + (d.cnt - c % d.cnt) = d.cnt * (r + (c / d.cnt + 1)) := by
        intro r
        simp only [Nat.mul_add]; omega
      have hsoff : ∀ r, P * (d.cnt * r + c) + (d.cnt - c % d.cnt) * P
          = P * d.cnt * (r + (c / d.cnt + 1)) := by
        intro r
        rw [Nat.mul_assoc, ← em r]; ring
      -- the loop at the start of row `r`
      have step : ∀ r, d.cnt * r + c < tot (d :: R) → Reach R r →
          (r + (c / d.cnt + 1) < tot R →
            RtR true stop (c / d.cnt + 1) (P * d.cnt) (P * d.cnt) R r) ∧
          (tot R ≤ r + (c / d.cnt + 1) → Run (d :: R) (d.cnt * r) (d.cnt * (tot R - r))) := by
        intro r hlt hr
        obtain ⟨adv, a, w, hw, hws, ha, hle, hdig, hrun, hxe⟩ := h1 _ hlt (hreach r hr)
        have hi := inv hlt (by rw [hws]; exact hle' _ hle) hw
        rw [Nat.mul_mod_right, Nat.zero_add, hsoff r] at hi
        rcases hi with ⟨g1, -⟩ | ⟨-, g1⟩
        · exact absurd g1 hcsz
        refine ⟨fun hlt => ?_, fun hge => ?_⟩
        · rcases g1 with ⟨-, -, adv', r', g1, g2, g3⟩ | ⟨hno, -⟩
          · rw [← hcx, Nat.mul_div_cancel_left _ hcnt] at g1
            have := descendR (S := P * d.cnt) (P := P) (c' := c / d.cnt + 1) hd ha hle hdig hrun hxe
              (by rw [Nat.mul_div_cancel_left _ hcnt]; exact g1) g2 (g3.symm.trans hws)
            rwa [hx.1, Nat.mul_div_cancel_left _ hcnt] at this
          · exfalso
            apply hno
            refine ⟨hf, ?_⟩
            rw [hstop']
            exact Nat.mul_lt_mul_of_pos_left hlt hPc
        · have hge' : stop ≤ P * d.cnt * (r + (c / d.cnt + 1)) := by
            rw [hstop']; exact Nat.mul_le_mul_left _ hge
          rcases g1 with ⟨-, hlt', -⟩ | ⟨-, g1, -⟩
          · omega
          · rw [← hi2, Nat.min_self] at g1
            have hs := hsoff r
            have e1 : (d.cnt - c % d.cnt) * P + c % d.cnt * P = d.cnt * P := by
              rw [← Nat.add_mul]; congr 1; omega
            have : tot (d :: R) ≤ d.cnt * r + a := by
              refine Nat.le_of_mul_le_mul_left (c := P) ?_ hP
              rw [← hstop, ← hws]; omega
            have e2 : d.cnt * r + a = d.cnt * tot R := by omega
            rw [Nat.mul_sub, show d.cnt * tot R - d.cnt * r = a by omega]
            exact hrun
      have hroom' : Room stop (P * d.cnt) R := by rw [hcx]; exact hroom.2
      refine ih hR (c / d.cnt + 1) (P * d.cnt) hPc (fun h => absurd h hPn) (fun _ => by omega) hstop'
        hroom' ?_ ?_
      · intro r hr hrr
        refine (step r ?_ hrr).1 hr
        have : d.cnt * (r + (c / d.cnt + 1)) ≤ d.cnt * tot R := Nat.mul_le_mul_left _ (by omega)
        have := em r
        omega
      · intro r hr hge hrr
        apply run_down hd
        rcases Nat.lt_or_ge (d.cnt * r + c) (tot (d :: R)) with hlt | hge'
        · exact (step r hlt hrr).2 hge
        · have := h2 (d.cnt * r) (by rw [htd]; exact Nat.mul_lt_mul_of_pos_left hr hcnt) hge' (hreach r hrr)
          rwa [htd, ← Nat.mul_sub] at this
    rw [if_neg (by simpa using hx)]
    -- the rows do not fill this dimension
    have main : ∀ o, o < d.cnt → d.segStart o = true → d.cnt ≤ o + c → tot R ≠ 1 →
        (o = 0 ∨ c < d.cnt) → False := by
      intro o ho hs hge ht hoc
      obtain ⟨g1, g2, g3, g4, g5, g6, g7⟩ := dim_facts hd ho
      have e1 : o % d.cnt = o := Nat.mod_eq_of_lt ho
      have e2 : o / d.cnt = 0 := Nat.div_eq_of_lt ho
      have hreach : Reach (d :: R) o := ⟨by rw [e1]; exact hs, fun _ => by rw [e2]; exact reach_zero R⟩
      have hge2 : d.cnt * 2 ≤ d.cnt * tot R := Nat.mul_le_mul_left _ (by omega)
      have hcross : ∀ k, Run (d :: R) o k → ¬ d.cnt < o + k := by
        intro k hk hlt
        have hex := (run_cross hd hk (b := 1) (by omega) (by rw [e2]; omega)).1
        have := seg_full hd (exact_full hd hex) ho hs
        exact hx ⟨hex, by omega⟩
      rcases Nat.lt_or_ge (o + c) (tot (d :: R)) with hlt | hge'
      swap
      · exact hcross _ (h2 o (by omega) hge' hreach) (by omega)
      obtain ⟨adv, a, w, hw, hws, ha, hle, hdig, hrun, hxe⟩ := h1 o hlt hreach
      have hacnt : o + a ≤ d.cnt := by
        have := hcross _ hrun
        omega
      have hdig := hdig (by omega)
      have hi := inv hlt (by rw [hws]; exact hle' _ hle) hw
      rw [e1, e2] at hi
      have hdm := Nat.div_add_mod (o + c) d.cnt
      have hcurlt := Nat.mod_lt (o + c) hcnt
      have hc1 : 1 ≤ (o + c) / d.cnt := (Nat.one_le_div_iff hcnt).2 hge
      have hc1le := Nat.div_le_self (o + c) d.cnt
      have hPo := Nat.le_mul_of_pos_left (o + c) hP
      rcases hi with ⟨q1, q2, r, q3, q4, q5⟩ | ⟨-, ⟨hf, hlt2, adv', r, q3, q4, q5⟩ | ⟨-, q1, -⟩⟩
      · -- the lane is passed over
        have hc2 := hc q2
        have ha1 : a = 1 := by
          have := run_in_row hd hrun ha (by rw [e1]; exact hacnt)
          rw [e1] at this
          omega
        subst ha1
        rcases Nat.lt_or_ge (o + 1) d.cnt with hlt1 | hge1
        · rw [q4, digits, Nat.div_eq_of_lt hlt1] at hdig
          have := rwalk_home hR (Nat.mul_pos hP hcs) hroom.2 (by omega) (hlt' _ hlt) q3
            (by rw [← q5, hws]; exact hle' _ hle) (List.cons.inj hdig).2
          rw [← q5, hws] at this
          have := Nat.le_of_mul_le_mul_left this hP
          omega
        · have hlast : o + 1 = d.cnt := by omega
          rw [q4, digits, hlast, Nat.mod_self, Nat.div_self hcnt] at hdig
          have hcur := (List.cons.inj hdig).1
          rcases hoc with rfl | hlt3
          · have hcnt1 : d.cnt = 1 := by omega
            have hcs2 : 1 < d.cs := by
              rcases Nat.lt_or_ge 1 d.cs with h | h
              · exact h
              · exact absurd (unit_iff.2 ⟨by omega, hcnt1⟩) hu
            rw [Nat.zero_add, hcnt1, Nat.div_one] at q3
            refine rwalk_no_return hR hP ?_ hroom.2 hc2 ?_ ?_ q3 (by rw [← q5, hws]; simp) (List.cons.inj hdig).2
            · have := Nat.mul_lt_mul_of_pos_left hcs2 hP
              omega
            · rw [htd, hcnt1] at hlt; omega
            · rw [hstop', hcnt1, Nat.mul_one]
          · rw [hcur, Nat.add_zero] at hdm
            have h2 : d.cnt * ((o + c) / d.cnt) < d.cnt * 2 := by omega
            have h3 : d.cnt * 1 < d.cnt * ((o + c) / d.cnt) := by omega
            have := Nat.lt_of_mul_lt_mul_left h2
            have := Nat.lt_of_mul_lt_mul_left h3
            omega
      · -- the loop goes on
        have ho0 := seg_full hd hf ho hs
        subst ho0
        obtain ⟨hi1, hi2⟩ := (full_iff hd hcnt).1 hf
        have hacn : a = d.cnt := by
          rw [q4, digits, Nat.zero_add] at hdig
          have := (List.cons.inj hdig).1
          by_contra hne
          rw [Nat.mod_eq_of_lt (by omega)] at this
          omega
        subst hacn
        have hcs2 : d.cnt < d.cs := by
          by_contra hge
          apply hx
          refine ⟨?_, by omega⟩
          simp only [Dim.exact, Bool.and_eq_true, beq_iff_eq]
          have := Nat.div_add_mod d.idx d.cs
          have h9 : d.coff 0 = d.cs * (d.idx / d.cs) := by
            rw [Nat.mul_comm]; rfl
          refine ⟨by omega, by omega⟩
        rw [Nat.zero_add] at hdig q3 hlt2 hdm hcurlt hws hc1
        have hsoff : P * c + (d.cnt - c % d.cnt) * P = P * d.cnt * (c / d.cnt + 1) := by
          rw [Nat.mul_assoc, show d.cnt * (c / d.cnt + 1) = c + (d.cnt - c % d.cnt) by
            rw [Nat.mul_add]; omega]
          ring
        rw [hsoff] at q3 hlt2
        rw [q4, digits, Nat.mod_self, Nat.div_self hcnt] at hdig
        refine rwalk_no_return hR hPc (Nat.mul_lt_mul_of_pos_left hcs2 hP) hroom.2 (by omega) ?_ hstop' q3
          (by rw [← q5, hws]) (List.cons.inj hdig).2
        rw [hstop'] at hlt2
        exact Nat.lt_of_mul_lt_mul_left hlt2
      · rw [hws] at q1
        have q2 : P * (o + a + (o + c) % d.cnt) = P * (o + c + min d.cnt (d.cce o)) := by
          rw [Nat.mul_add, Nat.mul_add P (o + c), Nat.mul_comm P ((o + c) % d.cnt),
            Nat.mul_comm P (min _ _)]
          exact q1
        have q3 := Nat.eq_of_mul_eq_mul_left hP q2
        have : d.cnt * 1 ≤ d.cnt * ((o + c) / d.cnt) := Nat.mul_le_mul_left _ hc1
        omega
    have hrow : ∀ o, o < d.cnt → d.segStart o = true →
        o + c < d.cnt ∨ (tot R = 1 ∧ d.cnt ≤ d.cce o) := by
      intro o ho hs
      obtain ⟨g1, g2, g3, g4, g5, g6, g7⟩ := dim_facts hd ho
      have e1 : o % d.cnt = o := Nat.mod_eq_of_lt ho
      have e2 : o / d.cnt = 0 := Nat.div_eq_of_lt ho
      have hreach : Reach (d :: R) o := ⟨by rw [e1]; exact hs, fun _ => by rw [e2]; exact reach_zero R⟩
      rcases Nat.lt_or_ge (o + c) d.cnt with hlt | hge
      · exact .inl hlt
      · right
        by_cases ht : tot R = 1
        · refine ⟨ht, ?_⟩
          have htt : tot (d :: R) = d.cnt := by rw [htd, ht, Nat.mul_one]
          have := h2 o (by omega) (by omega) hreach
          rw [htt] at this
          have := run_in_row hd this (by omega) (by rw [e1]; omega)
          rw [e1] at this
          omega
        · exfalso
          rcases Nat.lt_or_ge c d.cnt with h | h
          · exact main o ho hs hge ht (.inr h)
          · exact main 0 hcnt (by simp [Dim.segStart]) (by omega) ht (.inl rfl)
    simp only [Bool.and_eq_true, List.all_eq_true, List.mem_range, Bool.or_eq_true,
      Bool.not_eq_true', decide_eq_true_eq, beq_iff_eq]
    refine ⟨fun o ho => ?_, ?_⟩
    · by_cases hs : d.segStart o = true
      · rcases hrow o ho hs with h | h
        · exact .inl (.inr ⟨h, .inl trivial⟩)
        · exact .inr h
      · exact .inl (.inl (by simpa using hs))
    by_cases hf : d.full = true
    swap
    · exact .inl (.inl (by simpa using hf))
    by_cases ht : tot R = 1
    · exact .inl (.inr ht)
    right
    have hclt : c < d.cnt := by
      rcases hrow 0 hcnt (by simp [Dim.segStart]) with h | h
      · omega
      · exact absurd h.1 ht
    obtain ⟨hi1, hi2⟩ := (full_iff hd hcnt).1 hf
    have hskip : ¬ (d.csz 0 = 1 ∧ P ≠ 1) := by
      rintro ⟨q1, q2⟩
      have := hc q2
      omega
    have hS1 : P * d.cs ≠ 1 := by
      intro h
      have q1 := Nat.eq_one_of_mul_eq_one_left h
      rw [q1] at f5
      exact hu (unit_iff.2 ⟨q1, by omega⟩)
    refine need_outerR stop R hR d.exact false (P * d.cnt) (P * d.cs) hPc (Nat.mul_pos hP hcs) hS1
      hroom.2 hstop' (by simp) ?_ ?_
    · intro h
      simp only [Dim.exact, Bool.and_eq_true, beq_iff_eq] at h
      rw [h.2]
    · intro r hr hrr
      have hrr := hrr.resolve_left (by simp)
      have hreach : Reach (d :: R) (d.cnt * r) :=
        ⟨by simp [Dim.segStart], fun _ => by rw [Nat.mul_div_cancel_left _ hcnt]; exact hrr⟩
      have hlt : d.cnt * r + c < tot (d :: R) := by
        have : d.cnt * (r + 1) ≤ d.cnt * tot R := Nat.mul_le_mul_left _ (by omega)
        rw [Nat.mul_add] at this
        omega
      obtain ⟨adv, a, w, hw, hws, ha, hle, hdig, hrun, hxe⟩ := h1 _ hlt hreach
      have hi := inv hlt (by rw [hws]; exact hle' _ hle) hw
      have hsoff : P * (d.cnt * r + c) + (d.cnt - c) * P = P * d.cnt * (r + 1) := by
        rw [Nat.mul_comm (d.cnt - c) P, ← Nat.mul_add, Nat.mul_assoc, Nat.mul_add d.cnt]
        congr 1; omega
      rw [Nat.mul_mod_right, Nat.zero_add, Nat.mod_eq_of_lt hclt, Nat.div_eq_of_lt hclt, hsoff,
        Nat.mul_div_cancel_left _ hcnt] at hi
      rcases hi with ⟨g1, g2, -⟩ | ⟨-, ⟨-, -, adv', r', g1, g2, g3⟩ | ⟨hno, -⟩⟩
      · exact absurd ⟨g1, g2⟩ hskip
      · have := descendR (S := P * d.cs) (P := P) (c' := 1) hd ha hle hdig hrun hxe
          (by rw [Nat.mul_div_cancel_left _ hcnt]; exact g1) g2 (g3.symm.trans hws)
        rwa [Bool.true_and, Nat.mul_div_cancel_left _ hcnt] at this
      · exfalso
        apply hno
        refine ⟨hf, ?_⟩
        rw [hstop']
        exact Nat.mul_lt_mul_of_pos_left hr hPc

/-- Behind `k` leading unit dimensions: `goodFrom` is needed. -/
theorem need_unitsR (stop : Nat) (L : List Dim) (hL : ∀ d ∈ L, DimOk d) (k : Nat)
    (hstop : stop = tot L) (hroom : Room stop 1 L)
    (h1 : ∀ m, m + k < tot L → Reach L m → RtR true stop k 1 1 L m)
    (h2 : ∀ m, m < tot L → tot L ≤ m + k → Reach L m → Run L m (tot L - m)) :
    goodFrom .release k L = true := by
  induction L generalizing k with
  | nil => rfl
  | cons d R ih =>
    have hd := hL d (by simp)
    have hR : ∀ x ∈ R, DimOk x := fun x hx => hL x (by simp [hx])
    have hcnt := hd.cnt
    have hfit := hd.fit
    rw [goodFrom]
    by_cases hu : d.unit = true
    · rw [if_pos hu]
      obtain ⟨hcs1, hcnt1⟩ := unit_iff.1 hu
      have hf := exact_full hd (unit_exact hu)
      obtain ⟨hi1, hi2⟩ := (full_iff hd hcnt).1 hf
      have hreach : ∀ m, Reach R m → Reach (d :: R) m := fun m hm =>
        ⟨by simp [hcnt1, Nat.mod_one, Dim.segStart], fun _ => by rw [hcnt1, Nat.div_one]; exact hm⟩
      have htt : tot (d :: R) = tot R := by rw [tot_cons, hcnt1, Nat.one_mul]
      have hroom' : Room stop 1 R := by
        have := hroom.2
        rwa [hcs1, Nat.mul_one] at this
      have step : ∀ m, m + k < tot R → Reach R m →
          (m + (k + 1) < tot R → RtR true stop (k + 1) 1 1 R m) ∧
          (tot R ≤ m + (k + 1) → Run (d :: R) m (k + 1)) := by
        intro m hm hr
        obtain ⟨adv, a, w, hw, hws, ha, hle, hdig, hrun, hxe⟩ := h1 m (by omega) (hreach m hr)
        have hi := rwalk_inv hd hR Nat.one_pos hroom.1 (by omega) (by omega) (by omega) hw (by omega)
        have hm0 : m % d.cnt = 0 := by rw [hcnt1, Nat.mod_one]
        rw [hm0, ← hi2, Nat.min_self, hcnt1, hcs1] at hi
        simp only [Nat.mod_one, Nat.zero_add, Nat.div_one, Nat.one_mul, Nat.sub_zero, Nat.mul_one,
          Nat.zero_mul, Nat.add_zero] at hi
        rcases hi with ⟨-, g2, -⟩ | ⟨-, g1⟩
        · exact absurd rfl g2
        refine ⟨fun hlt => ?_, fun hge => ?_⟩
        · rcases g1 with ⟨-, -, adv', r', g1, g2, g3⟩ | ⟨hno, -⟩
          · have := descendR (S := 1) (P := 1) (c' := k + 1) hd ha hle hdig hrun hxe
              (by rw [hcnt1, Nat.mul_one, Nat.div_one, Nat.one_mul, ← Nat.add_assoc]; exact g1)
              g2 (g3.symm.trans hws)
            rwa [unit_exact hu, hcnt1, Nat.mul_one, Nat.div_one] at this
          · exact absurd ⟨hf, by omega⟩ hno
        · rcases g1 with ⟨-, hlt, -⟩ | ⟨-, g1, -⟩
          · omega
          · exact hrun.mono (by omega)
      have down : ∀ m a, Run (d :: R) m a → Run R m a := by
        intro m a h
        exact run_down (r := m) (k := a) hd (by rw [hcnt1, Nat.one_mul, Nat.one_mul]; exact h)
      refine ih hR (k + 1) (by rw [hstop, htt]) hroom' (fun m hm hr => (step m (by omega) hr).1 hm) ?_
      intro m hm hge hr
      apply down
      rcases Nat.lt_or_ge (m + k) (tot R) with hlt | hge'
      · rw [show tot R - m = k + 1 by omega]
        exact (step m hlt hr).2 hge
      · have := h2 m (by omega) (by omega) (hreach m hr)
        rwa [htt] at this
    · rw [if_neg hu]
      refine need_runR stop (d :: R) hL k 1 Nat.one_pos ?_ (fun h => absurd rfl h) (by omega) hroom h1 h2
      rintro - d' R' h
      cases h; exact hu

/-- One right call of `next`. -/
def StepOkR (L : List Dim) (m : Nat) : Prop :=
  ∃ a w, 0 < a ∧ walk .release (tot L) 0 0 m (lanesAt 1 L m) = ok w ∧ w.soff = m + a ∧
    m + a ≤ tot L ∧ (m + a < tot L → w.offs = digits L (m + a)) ∧ Run L m a

/-- If `next` is right wherever a right iteration has to call it, the selection is good. -/
theorem good_of_stepsR (L : List Dim) (hL : ∀ d ∈ L, DimOk d) (hroom : Room (tot L) 1 L)
    (h : ∀ m, m < tot L → Reach L m → StepOkR L m) : good .release L = true := by
  refine need_unitsR (tot L) L hL 0 rfl hroom ?_ ?_
  · intro m hm hr
    obtain ⟨a, w, ha, hw, hws, hle, hdig, hrun⟩ := h m hm hr
    refine ⟨0, a, w, ?_, by omega, ha, by omega, hdig, hrun, fun _ => rfl⟩
    simpa using hw
  · intro m hm hge
    omega

end Hidefix.Proofs
