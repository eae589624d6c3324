import Verif.Proofs.Walk

/-!
# One call of `ChunkSlicer::next` on good selections
-/

namespace Hidefix.Proofs
open Hidefix Hidefix.Spec Outcome

theorem reach_zero (L : List Dim) : Reach L 0 := by
  induction L with
  | nil => trivial
  | cons x R ih => exact ⟨by simp [Dim.segStart], fun _ => by rw [Nat.zero_div]; exact ih⟩

theorem unit_iff {d : Dim} : d.unit = true ↔ d.cs = 1 ∧ d.cnt = 1 := by
  simp [Dim.unit]

theorem unit_exact {d : Dim} (h : d.unit = true) : d.exact = true := by
  obtain ⟨h1, h2⟩ := unit_iff.1 h
  simp [Dim.exact, h1, h2, Nat.mod_one]

theorem exact_full {d : Dim} (hd : DimOk d) (h : d.exact = true) : d.full = true := by
  simp only [Dim.exact, Dim.full, Bool.and_eq_true, beq_iff_eq] at *
  have := hd.fit
  exact ⟨h.1, by omega⟩

/-- In a dimension selected as one chunk the only start of a segment is the first index. -/
theorem seg_full {d : Dim} (hd : DimOk d) (h : d.full = true) {o : Nat} (ho : o < d.cnt)
    (hs : d.segStart o = true) : o = 0 := by
  simp only [Dim.full, Bool.and_eq_true, beq_iff_eq, Dim.segStart, Bool.or_eq_true] at h hs
  rcases hs with h0 | h0
  · exact h0
  · have hcs := hd.cs
    have : o < d.cs := by omega
    rw [Nat.add_mod, h.1, Nat.zero_add, Nat.mod_mod, Nat.mod_eq_of_lt this] at h0
    exact h0

/-- The branch of `okRun` for a dimension the claimed rows do not fill. -/
theorem okRun_row {p : Profile} {c : Nat} {d : Dim} {R : List Dim} (hok : okRun p c (d :: R) = true)
    (hu : ¬ d.unit = true) (hx : ¬ (d.exact = true ∧ d.cnt ≤ c)) :
    (∀ o, o < d.cnt → d.segStart o = true →
      (o + c < d.cnt ∧ (p = .release ∨ o + c ≤ d.cce o)) ∨ (tot R = 1 ∧ d.cnt ≤ d.cce o)) ∧
    (d.full = true → tot R ≠ 1 → okFrom d.exact false R = true) := by
  rw [okRun, if_neg hu, if_neg (by simpa using hx)] at hok
  simp only [Bool.and_eq_true, List.all_eq_true, List.mem_range, Bool.or_eq_true,
    Bool.not_eq_true', decide_eq_true_eq, beq_iff_eq] at hok
  refine ⟨fun o ho hs => ?_, fun hf ht => ?_⟩
  · rcases hok.1 o ho with (h | h) | h
    · rw [hs] at h; cases h
    · exact .inl h
    · exact .inr h
  · rcases hok.2 with (h | h) | h
    · rw [hf] at h; cases h
    · exact absurd h ht
    · exact h

theorem row_lt_tot {d : Dim} {R : List Dim} (hd : DimOk d) {m : Nat}
    (hm : m < d.cnt * tot R) : m / d.cnt < tot R := by
  rw [Nat.div_lt_iff_lt_mul hd.cnt, Nat.mul_comm]; exact hm

/-- If the claimed rows reach the end of the selection, the rest of it is one run. -/
theorem run_rest {p : Profile} (L : List Dim) (hL : ∀ d ∈ L, DimOk d) (c m : Nat) (hok : okRun p c L = true)
    (hr : Reach L m) (hm : m < tot L) (hc : tot L ≤ m + c) : Run L m (tot L - m) := by
  induction L generalizing c m with
  | nil =>
    simp only [tot, List.map_nil, List.prod_nil] at hm ⊢
    rw [show m = 0 by omega]; exact run_one _ _
  | cons d R ih =>
    have hd := hL d (by simp)
    have hR : ∀ x ∈ R, DimOk x := fun x hx => hL x (by simp [hx])
    have hcnt := hd.cnt
    have ho : m % d.cnt < d.cnt := Nat.mod_lt _ hcnt
    have hdm := Nat.div_add_mod m d.cnt
    rw [tot_cons] at hm hc ⊢
    have hrow := row_lt_tot hd hm
    have key : d.exact = true → (c' : Nat) → okRun p c' R = true → tot R ≤ m / d.cnt + c' →
        Run (d :: R) m (d.cnt * tot R - m) := by
      intro hx c' h1 h2
      have := run_exact hd hx (ih hR c' (m / d.cnt) h1 (hr.2 (exact_full hd hx)) hrow h2)
      rwa [Nat.add_sub_of_le (Nat.le_of_lt hrow)] at this
    by_cases hu : d.unit = true
    · have := (unit_iff.1 hu).2
      refine key (unit_exact hu) c ?_ ?_
      · rw [okRun, if_pos hu] at hok; exact hok
      · rw [this, Nat.div_one]; rw [this] at hc; omega
    by_cases hx : d.exact = true ∧ d.cnt ≤ c
    · refine key hx.1 (c / d.cnt + 1) ?_ ?_
      · rw [okRun, if_neg hu, if_pos (by simpa using hx)] at hok; exact hok
      · have h0 := seg_full hd (exact_full hd hx.1) ho hr.1
        have hdc := Nat.div_add_mod c d.cnt
        have := Nat.mod_lt c hcnt
        refine Nat.le_of_lt_succ (Nat.lt_of_mul_lt_mul_left (a := d.cnt) ?_)
        simp only [Nat.succ_eq_add_one, Nat.mul_add] at *
        omega
    · obtain ⟨h1, -⟩ := okRun_row hok hu hx
      rcases h1 _ ho hr.1 with h | ⟨h, h'⟩
      · exfalso
        have : d.cnt * (m / d.cnt + 1) ≤ d.cnt * tot R := Nat.mul_le_mul_left _ hrow
        rw [Nat.mul_add] at this
        omega
      · rw [h] at hm ⊢
        have : m % d.cnt = m := Nat.mod_eq_of_lt (by omega)
        apply run_row hd <;> omega

theorem mul64_release (a b : Nat) : mul64 .release a b = ok (a * b % W) := by
  unfold mul64
  split
  · rw [Nat.mod_eq_of_lt (by assumption)]
  · rfl

theorem add64_release (a b : Nat) : add64 .release a b = ok ((a + b) % W) := by
  unfold add64
  split
  · rw [Nat.mod_eq_of_lt (by assumption)]
  · rfl

/-- A release build takes rows back by wrapping around. -/
theorem sub64_back {a x : Nat} (ha : a < W) (hx : 0 < x) (hxW : x ≤ W) :
    sub64 .release a (a + x) = ok (W - x) := by
  unfold sub64
  rw [if_neg (by omega)]
  simp only
  congr 1
  rw [show a + W - (a + x) = W - x by omega, Nat.mod_eq_of_lt (by omega)]

theorem mul64_back {x P : Nat} (hx : 0 < x) (hP : 0 < P) (h : x * P < W) :
    mul64 .release (W - x) P = ok (W - x * P) := by
  have hz : 0 < x * P := Nat.mul_pos hx hP
  have e : (W - x) * P = (W - x * P) + W * (P - 1) := by
    have h2 : P * W = W * (P - 1) + W := by
      obtain ⟨q, rfl⟩ : ∃ q, P = q + 1 := ⟨P - 1, by omega⟩
      rw [Nat.add_sub_cancel]; ring
    have h1 : (W - x) * P + x * P = P * W := by
      rw [← Nat.add_mul, Nat.sub_add_cancel (by
        have := Nat.le_mul_of_pos_right x hP
        omega)]; ring
    omega
  unfold mul64
  split
  · rename_i hlt
    congr 1
    rw [e] at hlt ⊢
    have : W * (P - 1) = 0 := by
      rcases Nat.eq_zero_or_pos (P - 1) with h0 | h0
      · rw [h0, Nat.mul_zero]
      · have := Nat.le_mul_of_pos_right W h0
        omega
    omega
  · simp only
    congr 1
    rw [e, Nat.add_mul_mod_self_left, Nat.mod_eq_of_lt (by omega)]

theorem add64_back {y z : Nat} (h0 : 0 < z) (hz : z ≤ y) (hy : y < W) :
    add64 .release y (W - z) = ok (y - z) := by
  unfold add64
  rw [if_neg (by omega)]
  simp only
  congr 1
  rw [show y + (W - z) = (y - z) + W by omega, Nat.add_mod_right, Nat.mod_eq_of_lt (by omega)]

set_option maxHeartbeats 1000000 in
/-- Entering the dimensions `L` with `c` rows claimed, every inner dimension being one uncut
chunk. -/
theorem walk_run (p : Profile) (stop : Nat) (L : List Dim) (hL : ∀ d ∈ L, DimOk d)
    (c P m adv : Nat) (hok : okRun p c L = true) (hr : Reach L m) (hP : 0 < P)
    (hne : P = 1 → ∃ d R, L = d :: R ∧ ¬ d.unit = true) (hc : P ≠ 1 → 2 ≤ c)
    (hm : m + c < tot L) (hstop : stop = P * tot L) (hW : stop < W) (hadv : adv = c * P) :
    ∃ a, walk p stop c adv (P * (m + c)) (lanesAt P L m)
        = ok ⟨digits L (m + a), a * P, P * (m + a)⟩ ∧
      0 < a ∧ m + a ≤ tot L ∧ Run L m a ∧
      (m + a < tot L → Reach L (m + a)) := by
  induction L generalizing c P m adv with
  | nil =>
    by_cases h : P = 1
    · obtain ⟨d, R, h, -⟩ := hne h; cases h
    · have := hc h
      simp [tot] at hm; omega
  | cons d R ih =>
    have hd := hL d (by simp)
    have hR : ∀ x ∈ R, DimOk x := fun x hx => hL x (by simp [hx])
    have hcnt := hd.cnt
    have hcs := hd.cs
    have ho : m % d.cnt < d.cnt := Nat.mod_lt _ hcnt
    obtain ⟨f1, f2, f3, f4, f5, f6, f7⟩ := dim_facts hd ho
    have hdm := Nat.div_add_mod m d.cnt
    have htR := tot_pos hR
    rw [tot_cons] at hm hstop
    have hmW : m + c < W := by
      have h1 := Nat.le_mul_of_pos_left (d.cnt * tot R) hP
      omega
    have hadvle : adv ≤ P * (m + c) := by
      rw [hadv, Nat.mul_comm]; exact Nat.mul_le_mul_left _ (by omega)
    have hrow := row_lt_tot hd (Nat.lt_of_le_of_lt (Nat.le_add_right m c) hm)
    have hml := Nat.mod_le m d.cnt
    simp only [lanesAt, walk]
    rw [cutSize_lane hd ho]
    simp only [ok_bind]
    rw [add64_of_lt (by omega)]
    simp only [ok_bind]
    by_cases hu : d.unit = true
    · -- a unit dimension after the leading ones is passed over
      obtain ⟨hcs1, hcnt1⟩ := unit_iff.1 hu
      have hP1 : P ≠ 1 := by
        intro h
        obtain ⟨d', R', h1, h2⟩ := hne h
        cases h1; exact h2 hu
      have hcsz : d.csz (m % d.cnt) = 1 := by
        rw [hcs1] at f2 f4; omega
      rw [if_pos ⟨hcsz, hP1⟩]
      rw [okRun, if_pos hu] at hok
      have hrR := hr.2 (exact_full hd (unit_exact hu))
      simp only [hcnt1, hcs1, Nat.mod_one, Nat.div_one, Nat.mul_one, Nat.zero_add, Nat.one_mul]
        at hrR hm hstop ⊢
      obtain ⟨a, hw, h0, hle, hrun, hreach⟩ := ih hR c P m adv hok hrR hP (fun h => absurd h hP1) hc hm
        hstop hadv
      refine ⟨a, ?_, h0, by rw [tot_cons, hcnt1, Nat.one_mul]; exact hle, ?_, ?_⟩
      · rw [hw]; simp [digits, hcnt1, Nat.mod_one]
      · have := run_exact (m := m) hd (unit_exact hu) (b := a) (by rw [hcnt1, Nat.div_one]; exact hrun)
        rwa [hcnt1, Nat.div_one, Nat.one_mul, Nat.add_sub_cancel_left] at this
      · intro h
        rw [tot_cons, hcnt1, Nat.one_mul] at h
        refine ⟨by simp [hcnt1, Nat.mod_one, Dim.segStart], fun _ => ?_⟩
        rw [hcnt1, Nat.div_one]; exact hreach h
    by_cases hx : d.exact = true ∧ d.cnt ≤ c
    · -- whole rows are claimed
      have hf := exact_full hd hx.1
      have h0 := seg_full hd hf ho hr.1
      have hcx : d.cnt = d.cs := by
        have := hx.1
        simp only [Dim.exact, Bool.and_eq_true, beq_iff_eq] at this
        exact this.2
      obtain ⟨hi1, hi2⟩ := (full_iff hd ho).1 hf
      have hcs2 : d.cs ≠ 1 := fun h => hu (unit_iff.2 ⟨h, by omega⟩)
      have hcsz : d.csz (m % d.cnt) ≠ 1 := by omega
      rw [if_neg (by simp [hcsz])]
      rw [h0] at f1 f2 f3 f4 f5 f6 hcsz hi1 hi2 hdm ⊢
      rw [Nat.zero_add]
      simp only [Nat.mod_lt c hcnt, decide_true, debugAssert_true, ok_bind]
      rw [add64_of_lt (by omega)]
      simp only [ok_bind]
      rw [f4, sub64_of_le (by omega)]
      simp only [ok_bind]
      rw [show min (d.coff 0 + d.cs) d.shp - d.idx = d.cce 0 from rfl]
      have hcm := Nat.mod_lt c hcnt
      have hdc := Nat.div_add_mod c d.cnt
      rw [← hi2, Nat.min_self, sub64_of_le (by omega)]
      simp only [ok_bind]
      have em : m + c + (d.cnt - c % d.cnt) = d.cnt * (m / d.cnt + (c / d.cnt + 1)) := by
        simp only [Nat.mul_add]; omega
      have eA : c + (d.cnt - c % d.cnt) = d.cnt * (c / d.cnt + 1) := by
        simp only [Nat.mul_add]; omega
      have hrle : m / d.cnt + (c / d.cnt + 1) ≤ tot R := by
        refine Nat.le_of_lt_succ (Nat.lt_of_mul_lt_mul_left (a := d.cnt) ?_)
        simp only [Nat.succ_eq_add_one, Nat.mul_add] at em ⊢
        omega
      have hle1 : m + c + (d.cnt - c % d.cnt) ≤ d.cnt * tot R := by
        rw [em]; exact Nat.mul_le_mul_left _ hrle
      have hsoff : P * (m + c) + (d.cnt - c % d.cnt) * P = P * (m + c + (d.cnt - c % d.cnt)) := by ring
      have hsle : P * (m + c + (d.cnt - c % d.cnt)) ≤ stop := by
        rw [hstop]; exact Nat.mul_le_mul_left _ hle1
      rw [mul64_of_lt (by omega)]
      simp only [ok_bind]
      rw [add64_of_lt (by omega)]
      simp only [ok_bind]
      rw [add64_of_lt (by omega)]
      simp only [ok_bind, Nat.div_self hcnt, Nat.mod_self]
      rw [add64_of_lt (by
        have h1 := Nat.le_mul_of_pos_left (tot R) hcnt
        have h2 := Nat.le_mul_of_pos_left (d.cnt * tot R) hP
        have h3 : c / d.cnt + 1 ≤ tot R := Nat.le_trans (Nat.le_add_left _ _) hrle
        omega)]
      simp only [ok_bind]
      rw [hsoff]
      have hokR : okRun p (c / d.cnt + 1) R = true := by
        rw [okRun, if_neg hu, if_pos (by simpa using hx)] at hok; exact hok
      have hrR := hr.2 hf
      by_cases hcont : P * (m + c + (d.cnt - c % d.cnt)) < stop
      · rw [if_pos ⟨hi1, trivial, hcont⟩]
        have hmR : m / d.cnt + (c / d.cnt + 1) < tot R := by
          rw [em, hstop] at hcont
          exact Nat.lt_of_mul_lt_mul_left (Nat.lt_of_mul_lt_mul_left hcont)
        have eP : P * (m + c + (d.cnt - c % d.cnt))
            = P * d.cnt * (m / d.cnt + (c / d.cnt + 1)) := by rw [em, Nat.mul_assoc]
        have hcge : 1 ≤ c / d.cnt := (Nat.one_le_div_iff hcnt).2 hx.2
        have hPn : P * d.cnt ≠ 1 := by
          intro h
          have := Nat.eq_one_of_mul_eq_one_left h
          omega
        obtain ⟨a', hw, hp0, hle, hrun, hreach⟩ := ih hR (c / d.cnt + 1) (P * d.cnt) (m / d.cnt)
          (adv + (d.cnt - c % d.cnt) * P) hokR hrR (Nat.mul_pos hP hcnt) (fun h => absurd h hPn)
          (fun _ => by omega) hmR (by rw [hstop, Nat.mul_assoc])
          (by rw [hadv, ← Nat.add_mul, eA]; ring)
        have eM : m + d.cnt * a' = d.cnt * (m / d.cnt + a') := by
          rw [Nat.mul_add]; omega
        refine ⟨d.cnt * a', ?_, Nat.mul_pos hcnt hp0, ?_, ?_, ?_⟩
        · rw [eP, ← hcx, hw, eM]
          simp only [ok_bind, digits, Nat.mul_mod_right, Nat.mul_div_cancel_left _ hcnt]
          congr 2
          · ring
          · ring
        · rw [eM, tot_cons]; exact Nat.mul_le_mul_left _ hle
        · have := run_exact hd hx.1 hrun
          rwa [← eM, Nat.add_sub_cancel_left] at this
        · intro hlt
          rw [eM] at hlt ⊢
          refine ⟨by simp [Dim.segStart], fun _ => ?_⟩
          rw [Nat.mul_div_cancel_left _ hcnt]
          rw [tot_cons] at hlt
          exact hreach (Nat.lt_of_mul_lt_mul_left hlt)
      · rw [if_neg (fun h => hcont h.2.2)]
        simp only [hsle, decide_true, debugAssert_true, ok_bind]
        have hdl := Nat.div_le_self m d.cnt
        have hend : m / d.cnt + (c / d.cnt + 1) = tot R := by
          have : P * (m + c + (d.cnt - c % d.cnt)) = P * (d.cnt * tot R) := by omega
          have := Nat.eq_of_mul_eq_mul_left hP this
          rw [em] at this
          exact Nat.eq_of_mul_eq_mul_left hcnt this
        rw [carryRest_lane p _ R hR _ _ (by
          have h1 := Nat.le_mul_of_pos_left (tot R) hcnt
          have h2 := Nat.le_mul_of_pos_left (d.cnt * tot R) hP
          omega)]
        simp only [ok_bind]
        refine ⟨c + (d.cnt - c % d.cnt), ?_, by omega,
          by rw [tot_cons, ← Nat.add_assoc]; exact hle1, ?_, ?_⟩
        · rw [← Nat.add_assoc m c, hadv, Nat.add_mul c _ P]
          congr 2
          simp only [digits, em, Nat.mul_mod_right, Nat.mul_div_cancel_left _ hcnt]
        · have := run_exact hd hx.1 (run_rest R hR _ _ hokR hrR hrow (by omega))
          rwa [Nat.add_sub_of_le (Nat.le_of_lt hrow), ← hend, ← em,
            show m + c + (d.cnt - c % d.cnt) - m = c + (d.cnt - c % d.cnt) by omega] at this
        · intro hlt
          exfalso
          rw [← Nat.add_assoc, em, hend, tot_cons] at hlt
          omega
    · -- the run stays in this dimension
      obtain ⟨hall, hfok⟩ := okRun_row hok hu hx
      have hb : m % d.cnt + c < d.cnt ∧ (p = .release ∨ m % d.cnt + c ≤ d.cce (m % d.cnt)) := by
        rcases hall _ ho hr.1 with h | ⟨h, h'⟩
        · exact h
        · rw [h] at hm
          have : m % d.cnt = m := Nat.mod_eq_of_lt (by omega)
          omega
      -- the lane is not passed over
      have hskip : ¬ (d.csz (m % d.cnt) = 1 ∧ P ≠ 1) := by
        rintro ⟨q1, q2⟩
        have hc2 := hc q2
        have hfit := hd.fit
        by_cases hcs1 : d.cs = 1
        · have hcn : 1 < d.cnt := by
            rcases Nat.lt_or_ge 1 d.cnt with h | h
            · exact h
            · exact absurd (unit_iff.2 ⟨hcs1, by omega⟩) hu
          have ho' : d.cnt - 2 < d.cnt := by omega
          obtain ⟨-, g2, -, g4, g5, -, -⟩ := dim_facts hd ho'
          rcases hall (d.cnt - 2) ho' (by simp [Dim.segStart, hcs1, Nat.mod_one]) with h | ⟨-, h⟩
          · omega
          · have : d.coff (d.cnt - 2) = d.idx + (d.cnt - 2) := by simp [Dim.coff, hcs1]
            omega
        · omega
      rw [if_neg hskip]
      rw [Nat.div_eq_of_lt hb.1, Nat.mod_eq_of_lt hb.1]
      simp only [hb.1, decide_true, debugAssert_true, ok_bind]
      rw [add64_of_lt (by omega)]
      simp only [ok_bind]
      rw [f4, sub64_of_le (by omega)]
      simp only [ok_bind]
      rw [show min (d.coff (m % d.cnt) + d.cs) d.shp - d.idx = d.cce (m % d.cnt) from rfl]
      by_cases hwrap : d.cce (m % d.cnt) < m % d.cnt + c
      · -- rows are taken back, which only a release build does
        have hrel : p = .release := by
          rcases hb.2 with h | h
          · exact h
          · omega
        subst hrel
        have hmin : min d.cnt (d.cce (m % d.cnt)) = d.cce (m % d.cnt) := by omega
        obtain ⟨a, ha⟩ : ∃ a, d.cce (m % d.cnt) = m % d.cnt + a := ⟨d.cce (m % d.cnt) - m % d.cnt, by omega⟩
        have ha0 : 0 < a := by omega
        obtain ⟨x, hxe⟩ : ∃ x, c = a + x := ⟨c - a, by omega⟩
        have hx0 : 0 < x := by omega
        have hPc : P * (m + c) < W :=
          Nat.lt_trans (Nat.mul_lt_mul_of_pos_left hm hP) (by rw [← hstop]; exact hW)
        have hxP : x * P ≤ P * (m + c) := by
          rw [Nat.mul_comm]; exact Nat.mul_le_mul_left _ (by omega)
        have hxc : x * P ≤ c * P := Nat.mul_le_mul_right _ (by omega)
        have hcP : c * P < W := by
          refine Nat.lt_of_le_of_lt ?_ hPc
          rw [Nat.mul_comm]; exact Nat.mul_le_mul_left _ (by omega)
        have hxP0 : 0 < x * P := Nat.mul_pos hx0 hP
        rw [hmin, show m % d.cnt + c = d.cce (m % d.cnt) + x by omega,
          sub64_back (by omega) hx0 (by omega)]
        simp only [ok_bind]
        rw [mul64_back hx0 hP (by omega)]
        simp only [ok_bind]
        rw [hadv, add64_back hxP0 hxc hcP]
        simp only [ok_bind]
        rw [add64_back hxP0 hxP hPc]
        simp only [ok_bind]
        have hlt : d.cce (m % d.cnt) < d.cnt := by omega
        rw [Nat.div_eq_of_lt hlt, add64_of_lt (by unfold W; omega)]
        simp only [ok_bind]
        rw [if_neg (by omega)]
        simp only [debugAssert, ok_bind]
        rw [carryRest_lane .release _ R hR _ _ (by
          have := Nat.div_le_self m d.cnt
          omega)]
        simp only [ok_bind]
        obtain ⟨g1, g2⟩ := add_mod_div_of_lt (m := m) (k := a) hcnt (by omega)
        refine ⟨a, ?_, ha0, ?_, by apply run_row hd <;> omega, ?_⟩
        · congr 2
          · rw [Nat.mod_eq_of_lt hlt, ha]; simp only [digits, g1, g2, Nat.add_zero]
          · rw [hxe, Nat.add_mul]; omega
          · rw [hxe, ← Nat.add_assoc, Nat.mul_add P (m + a), Nat.mul_comm x]; omega
        · rw [tot_cons]; omega
        · intro _
          refine ⟨?_, ?_⟩
          · rw [g1]
            have := seg_boundary hd ho hlt
            simp only [Dim.segStart, Bool.or_eq_true, beq_iff_eq]
            right
            rw [← this]; congr 1; omega
          · intro hf
            have := (full_iff hd ho).1 hf
            omega
      rw [sub64_of_le (by omega)]
      simp only [ok_bind]
      generalize hed : min d.cnt (d.cce (m % d.cnt)) - (m % d.cnt + c) = e1
      have hpos : 0 < c + e1 := by omega
      have hle1 : m + c + e1 ≤ d.cnt * tot R := by
        have h2 : d.cnt * (m / d.cnt + 1) ≤ d.cnt * tot R := Nat.mul_le_mul_left _ hrow
        rw [Nat.mul_add] at h2
        omega
      have hsoff : P * (m + c) + e1 * P = P * (m + c + e1) := by ring
      have hsle : P * (m + c + e1) ≤ stop := by
        rw [hstop]; exact Nat.mul_le_mul_left _ hle1
      rw [mul64_of_lt (by omega)]
      simp only [ok_bind]
      rw [add64_of_lt (by omega)]
      simp only [ok_bind]
      rw [add64_of_lt (by omega)]
      simp only [ok_bind]
      have hdivle : min d.cnt (d.cce (m % d.cnt)) / d.cnt ≤ 1 := by
        calc _ ≤ d.cnt / d.cnt := Nat.div_le_div_right (Nat.min_le_left _ _)
          _ = 1 := Nat.div_self hcnt
      rw [add64_of_lt (by unfold W; omega)]
      simp only [ok_bind, Nat.zero_add]
      rw [hsoff]
      have hrun1 : Run (d :: R) m (c + e1) := by apply run_row hd <;> omega
      by_cases hcont : d.idx = d.coff (m % d.cnt) ∧ d.cnt = d.cce (m % d.cnt) ∧
          P * (m + c + e1) < stop
      · rw [if_pos hcont]
        have hf : d.full = true := (full_iff hd ho).2 ⟨hcont.1, hcont.2.1⟩
        rw [← hcont.2.1, Nat.min_self, Nat.div_self hcnt, Nat.mod_self]
        rw [← hcont.2.1, Nat.min_self] at hed
        have em : m + c + e1 = d.cnt * (m / d.cnt + 1) := by rw [Nat.mul_add]; omega
        have hmR : m / d.cnt + 1 < tot R := by
          have h := hcont.2.2
          rw [em, hstop] at h
          exact Nat.lt_of_mul_lt_mul_left (Nat.lt_of_mul_lt_mul_left h)
        have eP : P * (m + c + e1) = P * d.cnt * (m / d.cnt + 1) := by rw [em, Nat.mul_assoc]
        have hS' : P * d.cs ≠ 1 := by
          intro h
          have h2 := Nat.eq_one_of_mul_eq_one_left h
          have h3 := hcont.1
          have h4 := hcont.2.1
          rw [h2] at f2 f5
          exact hu (unit_iff.2 ⟨h2, by omega⟩)
        obtain ⟨e', hw, hle, hrun, hpos', hreach⟩ := walk_outer p stop R hR d.exact false
          (P * d.cnt) (P * d.cs) (m / d.cnt) (adv + e1 * P) (hfok hf (fun h => by rw [h] at hmR; exact absurd hmR (by simp)))
          (fun _ => hr.2 hf)
          (by
            intro h
            simp only [Dim.exact, Bool.and_eq_true, beq_iff_eq] at h
            rw [h.2])
          (Nat.mul_pos hP hcnt) hS' hmR (by rw [hstop, Nat.mul_assoc]) hW (by rw [← eP]; omega)
        have eM : m + c + (e1 + d.cnt * e') = d.cnt * (m / d.cnt + 1 + e') := by
          rw [← Nat.add_assoc, em, ← Nat.mul_add]
        refine ⟨c + (e1 + d.cnt * e'), ?_, by omega, ?_, ?_, ?_⟩
        · rw [eP, hw, ← Nat.add_assoc, eM, hadv]
          simp only [ok_bind, digits, Nat.mul_mod_right, Nat.mul_div_cancel_left _ hcnt]
          congr 2
          · ring
          · ring
        · rw [← Nat.add_assoc, eM, tot_cons]; exact Nat.mul_le_mul_left _ hle
        · by_cases h0 : e' = 0
          · rw [h0]; exact hrun1
          · have := run_exact hd (hpos' (by omega)) hrun
            rwa [show d.cnt * (m / d.cnt + (1 + e')) - m = c + (e1 + d.cnt * e') by
              rw [← Nat.add_assoc, ← eM]; omega] at this
        · intro hlt
          rw [← Nat.add_assoc, eM] at hlt ⊢
          refine ⟨by simp [Dim.segStart], ?_⟩
          intro hf
          rw [Nat.mul_div_cancel_left _ hcnt]
          rw [tot_cons] at hlt
          exact hreach rfl (Nat.lt_of_mul_lt_mul_left hlt)
      · rw [if_neg hcont]
        simp only [hsle, decide_true, debugAssert_true, ok_bind]
        rw [carryRest_lane p _ R hR _ _ (by
          have h1 := Nat.div_le_self m d.cnt
          have h2 := Nat.le_mul_of_pos_left (m + c + e1) hP
          omega)]
        simp only [ok_bind]
        refine ⟨c + e1, ?_, hpos, by rw [tot_cons, ← Nat.add_assoc]; exact hle1, hrun1, ?_⟩
        · rw [← Nat.add_assoc, hadv, show (c + e1) * P = c * P + e1 * P by ring]
          congr 2
          simp only [digits]
          by_cases h : m % d.cnt + c + e1 < d.cnt
          · have hmin : min d.cnt (d.cce (m % d.cnt)) = m % d.cnt + (c + e1) := by omega
            obtain ⟨g1, g2⟩ := add_mod_div_of_lt (m := m) (k := c + e1) hcnt (by omega)
            have h' : m % d.cnt + (c + e1) < d.cnt := by omega
            rw [hmin, Nat.mod_eq_of_lt h', Nat.div_eq_of_lt h',
              show m + c + e1 = m + (c + e1) by omega, g1, g2, Nat.add_zero]
          · have hmin : min d.cnt (d.cce (m % d.cnt)) = d.cnt := by omega
            have em : m + c + e1 = d.cnt * (m / d.cnt + 1) := by rw [Nat.mul_add]; omega
            rw [hmin, Nat.mod_self, Nat.div_self hcnt, em, Nat.mul_mod_right,
              Nat.mul_div_cancel_left _ hcnt]
        · intro hlt2
          rw [← Nat.add_assoc] at hlt2 ⊢
          by_cases h : m % d.cnt + c + e1 < d.cnt
          · obtain ⟨g1, g2⟩ := add_mod_div_of_lt (m := m) (k := c + e1) hcnt (by omega)
            rw [show m + c + e1 = m + (c + e1) by omega]
            refine ⟨?_, ?_⟩
            · rw [g1]
              have := seg_boundary hd ho (by omega)
              simp only [Dim.segStart, Bool.or_eq_true, beq_iff_eq]
              right
              rw [← this]; congr 1; omega
            · intro hf
              have := (full_iff hd ho).1 hf
              omega
          · have em : m + c + e1 = d.cnt * (m / d.cnt + 1) := by rw [Nat.mul_add]; omega
            refine ⟨by rw [em]; simp [Dim.segStart], ?_⟩
            intro hf
            exfalso
            apply hcont
            refine ⟨((full_iff hd ho).1 hf).1, ((full_iff hd ho).1 hf).2, ?_⟩
            rw [hstop]
            rw [tot_cons] at hlt2
            exact Nat.mul_lt_mul_of_pos_left hlt2 hP

/-- `run_rest` behind leading unit dimensions. -/
theorem run_rest_units {p : Profile} (L : List Dim) (hL : ∀ d ∈ L, DimOk d) (k m : Nat)
    (hok : goodFrom p k L = true) (hr : Reach L m) (hm : m < tot L) (hc : tot L ≤ m + k) :
    Run L m (tot L - m) := by
  induction L generalizing k with
  | nil => exact run_rest (p := p) [] hL k m rfl hr hm hc
  | cons d R ih =>
    by_cases hu : d.unit = true
    · have hd := hL d (by simp)
      obtain ⟨-, h1⟩ := unit_iff.1 hu
      rw [goodFrom, if_pos hu] at hok
      have hrR := hr.2 (exact_full hd (unit_exact hu))
      rw [tot_cons, h1, Nat.one_mul] at hm hc ⊢
      rw [h1, Nat.div_one] at hrR
      have := run_exact (m := m) hd (unit_exact hu) (b := tot R - m)
        (by rw [h1, Nat.div_one]; exact ih (fun x hx => hL x (by simp [hx])) (k + 1) hok hrR hm (by omega))
      rwa [h1, Nat.div_one, Nat.one_mul, Nat.add_sub_cancel_left] at this
    · rw [goodFrom, if_neg hu] at hok
      exact run_rest _ hL k m hok hr hm hc

/-- The loop behind `k` leading unit dimensions. -/
theorem walk_units (p : Profile) (L : List Dim) (hL : ∀ d ∈ L, DimOk d) (k n : Nat)
    (hne : k = 0 → L ≠ []) (hok : goodFrom p k L = true) (hr : Reach L n) (hn : n + k < tot L)
    (hW : tot L < W) :
    ∃ a, 0 < a ∧ walk p (tot L) k k (n + k) (lanesAt 1 L n) = ok ⟨digits L (n + a), a, n + a⟩ ∧
      n + a ≤ tot L ∧ Run L n a ∧ (n + a < tot L → Reach L (n + a)) := by
  induction L generalizing k with
  | nil =>
    simp only [tot, List.map_nil, List.prod_nil] at hn
    exact absurd rfl (hne (by omega))
  | cons d R ih =>
    by_cases hu : d.unit = true
    · have hd := hL d (by simp)
      have hR : ∀ x ∈ R, DimOk x := fun x hx => hL x (by simp [hx])
      obtain ⟨hcs1, hcnt1⟩ := unit_iff.1 hu
      rw [goodFrom, if_pos hu] at hok
      have hf := exact_full hd (unit_exact hu)
      have hrR := hr.2 hf
      rw [tot_cons, hcnt1, Nat.one_mul] at hn hW ⊢
      rw [hcnt1, Nat.div_one] at hrR
      have ho : 0 < d.cnt := by omega
      obtain ⟨f1, f2, f3, f4, f5, f6, f7⟩ := dim_facts hd ho
      obtain ⟨hi1, hi2⟩ := (full_iff hd ho).1 hf
      simp only [lanesAt, walk, hcnt1, Nat.mod_one]
      have hcut := cutSize_lane (p := p) (S := 1) hd ho
      rw [hcnt1] at hcut
      rw [hcut]
      simp only [ok_bind]
      rw [add64_of_lt (by omega)]
      simp only [ok_bind, Nat.zero_add, Nat.div_one]
      rw [if_neg (by simp)]
      simp only [Nat.zero_lt_one, decide_true, debugAssert_true, ok_bind]
      rw [add64_of_lt (by omega)]
      simp only [ok_bind]
      rw [f4, sub64_of_le (by omega)]
      simp only [ok_bind]
      rw [show min (d.coff 0 + d.cs) d.shp - d.idx = d.cce 0 from rfl, ← hi2, hcnt1, Nat.min_self]
      rw [sub64_of_le (by omega)]
      simp only [ok_bind, Nat.sub_zero]
      rw [mul64_of_lt (by unfold W; omega)]
      simp only [ok_bind, Nat.mul_one]
      rw [add64_of_lt (by omega)]
      simp only [ok_bind]
      rw [add64_of_lt (by omega)]
      simp only [ok_bind]
      have lift : ∀ a, Run R n a → Run (d :: R) n a := by
        intro a h
        have := run_exact (m := n) hd (unit_exact hu) (b := a) (by rw [hcnt1, Nat.div_one]; exact h)
        rwa [hcnt1, Nat.div_one, Nat.one_mul, Nat.add_sub_cancel_left] at this
      by_cases hcont : n + k + 1 < tot R
      · rw [if_pos ⟨hi1, trivial, hcont⟩]
        obtain ⟨a, ha, hw, hle, hrun, hreach⟩ := ih hR (k + 1) (by omega) hok hrR (by omega) hW
        refine ⟨a, ha, ?_, hle, lift _ hrun, fun h => ⟨by simp [hcnt1, Nat.mod_one, Dim.segStart],
          fun _ => by rw [hcnt1, Nat.div_one]; exact hreach h⟩⟩
        rw [hcs1, ← Nat.add_assoc] at *
        rw [hw]
        simp [digits, hcnt1, Nat.mod_one]
      · rw [if_neg (fun h => hcont h.2.2)]
        have he : n + (k + 1) = tot R := by omega
        simp only [show n + k + 1 ≤ tot R by omega, decide_true, debugAssert_true, ok_bind]
        rw [carryRest_lane p _ R hR _ _ (by omega)]
        simp only [ok_bind]
        refine ⟨k + 1, by omega, by simp [digits, hcnt1, Nat.mod_one, Nat.add_assoc], by omega, lift _ ?_,
          fun h => by omega⟩
        have := run_rest_units R hR (k + 1) n hok hrR (by omega) (by omega)
        rwa [show tot R - n = k + 1 by omega] at this
    · rw [goodFrom, if_neg hu] at hok
      obtain ⟨a, hw, h0, hle, hrun, hreach⟩ := walk_run p (tot (d :: R)) (d :: R) hL k 1 n k hok hr
        (by omega) (fun _ => ⟨d, R, rfl, hu⟩) (fun h => absurd rfl h) hn (by omega) hW (by omega)
      rw [Nat.one_mul] at hw
      refine ⟨a, h0, ?_, by omega, hrun, hreach⟩
      rw [hw]
      simp

/-- One call of `next` from the `n`-th position on a good selection. -/
theorem walk_top (p : Profile) (L : List Dim) (hne : L ≠ []) (hL : ∀ d ∈ L, DimOk d)
    (hg : good p L = true) (n : Nat) (hr : Reach L n) (hn : n < tot L) (hW : tot L < W) :
    ∃ a, 0 < a ∧ walk p (tot L) 0 0 n (lanesAt 1 L n) = ok ⟨digits L (n + a), a, n + a⟩ ∧
      n + a ≤ tot L ∧ Run L n a ∧ (n + a < tot L → Reach L (n + a)) :=
  walk_units p L hL 0 n (fun _ => hne) hg hr hn hW

/-! ## What is good in a debug build is good in a release build -/

theorem okRun_release {p : Profile} (L : List Dim) (c : Nat) (h : okRun .debug c L = true) :
    okRun p c L = true := by
  cases p with
  | debug => exact h
  | release =>
    induction L generalizing c with
    | nil => rfl
    | cons d R ih =>
      rw [okRun] at h ⊢
      split at h
      · rename_i hu
        rw [if_pos hu]; exact ih c h
      · rename_i hu
        rw [if_neg hu]
        split at h
        · rename_i hx
          rw [if_pos hx]; exact ih _ h
        · rename_i hx
          rw [if_neg hx]
          simp only [Bool.and_eq_true, List.all_eq_true, List.mem_range, Bool.or_eq_true,
            Bool.not_eq_true', decide_eq_true_eq, beq_iff_eq] at h ⊢
          refine ⟨fun o ho => ?_, h.2⟩
          rcases h.1 o ho with (h1 | h1) | h1
          · exact .inl (.inl h1)
          · exact .inl (.inr ⟨h1.1, .inl trivial⟩)
          · exact .inr h1

theorem goodFrom_release {p : Profile} (L : List Dim) (k : Nat) (h : goodFrom .debug k L = true) :
    goodFrom p k L = true := by
  induction L generalizing k with
  | nil => rfl
  | cons d R ih =>
    rw [goodFrom] at h ⊢
    split at h
    · rename_i hu
      rw [if_pos hu]; exact ih _ h
    · rename_i hu
      rw [if_neg hu]; exact okRun_release _ _ h

/-- A selection that a debug build handles correctly is handled correctly by every build. -/
theorem good_of_debug {p : Profile} {ds : Dataset} {start count : List Nat}
    (h : Good .debug ds start count) : Good p ds start count := goodFrom_release _ _ h

end Hidefix.Proofs
