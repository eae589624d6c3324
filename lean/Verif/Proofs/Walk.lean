import Verif.Proofs.Mixed

/-!
# The main loop of `ChunkSlicer::next` on good selections
-/

namespace Hidefix.Proofs
open Hidefix Hidefix.Spec Outcome

/-- What the loop sees of the dimensions `L` at their `n`-th position, `S` being the stride of the
innermost of them. -/
def lanesAt : Nat → List Dim → Nat → List Lane
  | _, [], _ => []
  | S, d :: L, n =>
    ⟨d.idx, n % d.cnt, d.cnt, d.coff (n % d.cnt), d.cs, S, d.shp⟩
      :: lanesAt (S * d.cs) L (n / d.cnt)

theorem lanesAt_off (S : Nat) (L : List Dim) (n : Nat) :
    (lanesAt S L n).map Lane.off = digits L n := by
  induction L generalizing S n with
  | nil => rfl
  | cons d L ih => simp [lanesAt, digits, ih]

/-- Facts about the chunk holding the `o`-th index. -/
theorem dim_facts {d : Dim} (hd : DimOk d) {o : Nat} (ho : o < d.cnt) :
    d.coff o ≤ d.idx + o ∧ d.idx + o < d.coff o + d.cs ∧ d.coff o + d.cs < W ∧
    d.coff o + d.csz o = min (d.coff o + d.cs) d.shp ∧ d.idx + d.cce o = min (d.coff o + d.cs) d.shp
    ∧ o < d.cce o ∧ d.cnt < W := by
  have h1 : d.coff o ≤ d.idx + o := Nat.div_mul_le_self _ _
  have h2 : d.idx + o < d.coff o + d.cs := by
    have := Nat.div_add_mod (d.idx + o) d.cs
    have := Nat.mod_lt (d.idx + o) hd.cs
    unfold Dim.coff
    rw [Nat.mul_comm]; omega
  have := hd.fit
  have := hd.edge
  have := hd.cs
  unfold Dim.csz Dim.cce
  refine ⟨h1, h2, ?_, ?_, ?_, ?_, ?_⟩ <;> omega

theorem cutSize_lane {p : Profile} {d : Dim} (hd : DimOk d) {o S : Nat} (ho : o < d.cnt) :
    cutSize p ⟨d.idx, o, d.cnt, d.coff o, d.cs, S, d.shp⟩ = ok (d.csz o) := by
  obtain ⟨h1, h2, h3, h4, -, -, -⟩ := dim_facts hd ho
  have := hd.fit
  unfold cutSize
  rw [add64_of_lt h3]
  simp only [ok_bind]
  split
  · rw [sub64_of_le (by omega)]
    simp only [ok_bind]
    rw [sub64_of_le (by omega)]
    congr 1
    omega
  · congr 1
    omega

theorem carryRest_lane (p : Profile) (S : Nat) (L : List Dim) (hL : ∀ d ∈ L, DimOk d) (m c : Nat)
    (hc : m + c < W) : carryRest p c (lanesAt S L m) = ok (digits L (m + c)) := by
  induction L generalizing S m c with
  | nil => rfl
  | cons d L ih =>
    have hd := hL d (by simp)
    have hcnt := hd.cnt
    have hdm := Nat.div_add_mod m d.cnt
    have hml := Nat.mod_le m d.cnt
    simp only [lanesAt, carryRest]
    rw [add64_of_lt (by omega)]
    simp only [ok_bind]
    have e : m + c = (m % d.cnt + c) + d.cnt * (m / d.cnt) := by omega
    have e1 : (m + c) % d.cnt = (m % d.cnt + c) % d.cnt := by
      rw [e, Nat.add_mul_mod_self_left]
    have e2 : (m + c) / d.cnt = m / d.cnt + (m % d.cnt + c) / d.cnt := by
      rw [e, Nat.add_mul_div_left _ _ hcnt, Nat.add_comm]
    by_cases h0 : (m % d.cnt + c) / d.cnt = 0
    · rw [if_pos h0, lanesAt_off]
      simp only [digits, e1, e2, h0, Nat.add_zero]
    · rw [if_neg h0, ih _ (fun x hx => hL x (by simp [hx])) _ _
        (by rw [← e2]; exact Nat.lt_of_le_of_lt (Nat.div_le_self _ _) hc)]
      simp only [ok_bind, digits, e1, e2]

/-- With no carry and only unit chunks, nothing happens. -/
theorem walk_unit (p : Profile) (stop : Nat) (L : List Dim) (hL : ∀ d ∈ L, DimOk d)
    (hu : ∀ d ∈ L, d.allunit = true) (S m adv soff : Nat) (hS : S ≠ 1) :
    walk p stop 0 adv soff (lanesAt S L m) = ok ⟨digits L m, adv, soff⟩ := by
  induction L generalizing S m with
  | nil => rfl
  | cons d L ih =>
    have hd := hL d (by simp)
    have ho : m % d.cnt < d.cnt := Nat.mod_lt _ hd.cnt
    obtain ⟨-, -, -, -, -, -, hW⟩ := dim_facts hd ho
    have h1 : d.csz (m % d.cnt) = 1 := by
      have := hu d (by simp)
      simp only [Dim.allunit, List.all_eq_true, List.mem_range, beq_iff_eq] at this
      exact this _ ho
    simp only [lanesAt, walk]
    rw [cutSize_lane hd ho]
    simp only [ok_bind]
    rw [add64_of_lt (by omega)]
    simp only [ok_bind, Nat.add_zero]
    rw [if_pos ⟨h1, hS⟩, Nat.div_eq_of_lt ho, Nat.mod_eq_of_lt ho,
      ih (fun x hx => hL x (by simp [hx])) (fun x hx => hu x (by simp [hx])) _ _
        (fun h => hS (Nat.eq_one_of_mul_eq_one_right h))]
    simp [digits]

/-- The positions at which the loop enters the outer dimensions `L` when it always walks the inner
ones completely. -/
def Reach : List Dim → Nat → Prop
  | [], _ => True
  | d :: R, m => d.segStart (m % d.cnt) = true ∧ (d.full = true → Reach R (m / d.cnt))

theorem full_iff {d : Dim} (hd : DimOk d) {o : Nat} (ho : o < d.cnt) :
    d.full = true ↔ d.idx = d.coff o ∧ d.cnt = d.cce o := by
  obtain ⟨h1, h2, -, h4, h5, -, -⟩ := dim_facts hd ho
  have := hd.fit
  have hcs := hd.cs
  simp only [Dim.full, Bool.and_eq_true, beq_iff_eq]
  constructor
  · rintro ⟨a, b⟩
    have hdiv : d.coff o = d.idx := by
      have e := (add_mod_div_of_lt (m := d.idx) (k := o) hcs (by omega)).2
      have := Nat.div_add_mod d.idx d.cs
      unfold Dim.coff
      rw [e, Nat.mul_comm]; omega
    rw [hdiv] at h5 
    refine ⟨hdiv.symm, ?_⟩
    omega
  · rintro ⟨a, b⟩
    refine ⟨?_, ?_⟩
    · rw [a]; unfold Dim.coff; exact Nat.mul_mod_left _ _
    · rw [← a] at h5; omega

theorem seg_boundary {d : Dim} (hd : DimOk d) {o : Nat} (ho : o < d.cnt) (hlt : d.cce o < d.cnt) :
    (d.idx + d.cce o) % d.cs = 0 := by
  obtain ⟨h1, h2, -, h4, h5, -, -⟩ := dim_facts hd ho
  have := hd.fit
  have e : d.idx + d.cce o = d.coff o + d.cs := by omega
  rw [e, Nat.add_mod_right]; unfold Dim.coff; exact Nat.mul_mod_left _ _


set_option maxHeartbeats 1000000 in
/-- Entering the outer dimensions with a carry: the loop stops at some later position `m + 1 + e`,
and everything from the `m`-th position up to it is consecutive in the chunk. -/
theorem walk_outer (p : Profile) (stop : Nat) (L : List Dim) (hL : ∀ d ∈ L, DimOk d)
    (ex al : Bool) (P S m adv : Nat)
    (hok : okFrom ex al L = true) (hr : al = false → Reach L m)
    (hex : ex = true → S = P) (hP : 0 < P) (hS : S ≠ 1)
    (hm : m + 1 < tot L) (hstop : stop = P * tot L) (hW : stop < W) (hadv : adv ≤ P * (m + 1)) :
    ∃ e, walk p stop 1 adv (P * (m + 1)) (lanesAt S L m)
        = ok ⟨digits L (m + 1 + e), adv + e * P, P * (m + 1 + e)⟩ ∧
      m + 1 + e ≤ tot L ∧ Run L m (1 + e) ∧ (0 < e → ex = true) ∧
      (al = false → m + 1 + e < tot L → Reach L (m + 1 + e)) := by
  induction L generalizing ex al P S m adv with
  | nil => simp [tot] at hm
  | cons d R ih =>
    have hd := hL d (by simp)
    have hR : ∀ x ∈ R, DimOk x := fun x hx => hL x (by simp [hx])
    have hcnt := hd.cnt
    have hcs := hd.cs
    have ho : m % d.cnt < d.cnt := Nat.mod_lt _ hcnt
    obtain ⟨f1, f2, f3, f4, f5, f6, f7⟩ := dim_facts hd ho
    have hdm := Nat.div_add_mod m d.cnt
    have htR := tot_pos hR
    rw [tot_cons] at hm hstop
    -- the branch of `okFrom` that applies
    have hbr : (d.csz (m % d.cnt) = 1 ∧
          ((m % d.cnt + 1 = d.cnt ∧ okFrom (ex && d.exact) (al || !d.full) R = true) ∨
           (m % d.cnt + 1 < d.cnt ∧ ∀ x ∈ R, x.allunit = true))) ∨
        (¬ (d.csz (m % d.cnt) = 1) ∧ m % d.cnt + 1 < d.cnt ∧
          (ex = true ∨ m % d.cnt + 1 = d.cce (m % d.cnt)) ∧
          (d.full = true → okFrom (ex && d.exact) al R = true)) := by
      have hseg : (al || d.segStart (m % d.cnt)) = true := by
        cases al with
        | true => rfl
        | false => simpa using (hr rfl).1
      unfold okFrom at hok
      rw [Bool.or_eq_true] at hok
      rcases hok with h | h
      · rw [beq_iff_eq, tot_cons] at h; omega
      · rw [List.all_eq_true] at h
        have h := h (m % d.cnt) (List.mem_range.2 ho)
        rw [hseg] at h
        simp only [Bool.not_true, Bool.false_or, Bool.or_eq_true, Bool.and_eq_true,
          beq_iff_eq] at h
        rcases h with ⟨h1, h2⟩ | h
        · exfalso
          rw [h2] at hm
          have : m / d.cnt = 0 := by
            rw [Nat.div_eq_zero_iff]; right; omega
          rw [this] at hdm; omega
        · split at h
          · rename_i hc
            refine .inl ⟨hc, ?_⟩
            split at h
            · rename_i hc2; exact .inl ⟨hc2, h⟩
            · exact .inr ⟨by omega, by simpa using h⟩
          · rename_i hc
            simp only [Bool.and_eq_true, decide_eq_true_eq, Bool.or_eq_true, beq_iff_eq,
              Bool.not_eq_true'] at h
            refine .inr ⟨hc, h.1.1, h.1.2, ?_⟩
            intro hf
            rcases h.2 with h | h
            · rw [hf] at h; cases h
            · exact h
    simp only [lanesAt, walk]
    rw [cutSize_lane hd ho]
    simp only [ok_bind]
    rw [add64_of_lt (by omega)]
    simp only [ok_bind]
    rcases hbr with ⟨hc1, hb⟩ | ⟨hnc, hlt, hce, hfull⟩
    · -- unit chunk: pass the carry on
      rw [if_pos ⟨hc1, hS⟩]
      have hS' : S * d.cs ≠ 1 := fun h => hS (Nat.eq_one_of_mul_eq_one_right h)
      rcases hb with ⟨hlast, hokR⟩ | ⟨hlt, hunit⟩
      · rw [hlast, Nat.div_self hcnt, Nat.mod_self]
        have em : m + 1 = d.cnt * (m / d.cnt + 1) := by rw [Nat.mul_add]; omega
        have hmR : m / d.cnt + 1 < tot R := by
          rw [em] at hm; exact Nat.lt_of_mul_lt_mul_left hm
        have eP : P * (m + 1) = P * d.cnt * (m / d.cnt + 1) := by rw [em, Nat.mul_assoc]
        obtain ⟨e', hw, hle, hrun, hpos, hreach⟩ := ih hR (ex && d.exact) (al || !d.full)
          (P * d.cnt) (S * d.cs) (m / d.cnt) adv hokR
          (by
            intro h
            simp only [Bool.or_eq_false_iff, Bool.not_eq_false'] at h
            exact (hr h.1).2 h.2)
          (by
            intro h
            simp only [Bool.and_eq_true, Dim.exact, beq_iff_eq] at h
            rw [hex h.1, h.2.2])
          (Nat.mul_pos hP hcnt) hS' hmR (by rw [hstop, Nat.mul_assoc])
          (by rw [← eP]; exact hadv)
        have eM : m + 1 + d.cnt * e' = d.cnt * (m / d.cnt + 1 + e') := by
          rw [em, ← Nat.mul_add]
        refine ⟨d.cnt * e', ?_, ?_, ?_, ?_, ?_⟩
        · rw [eP, hw, eM]
          simp only [ok_bind, digits, Nat.mul_mod_right, Nat.mul_div_cancel_left _ hcnt]
          congr 2
          · ring
          · ring
        · rw [eM, tot_cons]; exact Nat.mul_le_mul_left _ hle
        · by_cases h0 : e' = 0
          · rw [h0]; exact run_one _ _
          · have hx := hpos (by omega)
            simp only [Bool.and_eq_true] at hx
            have := run_exact hd hx.2 hrun
            rwa [show d.cnt * (m / d.cnt + (1 + e')) - m = 1 + d.cnt * e' by
              rw [← Nat.add_assoc, ← eM]; omega] at this
        · intro h
          have : 0 < e' := by
            rcases Nat.eq_zero_or_pos e' with h0 | h0
            · rw [h0] at h; simp at h
            · exact h0
          have hx := hpos this
          simp only [Bool.and_eq_true] at hx
          exact hx.1
        · intro ha hlt
          rw [eM] at hlt ⊢
          refine ⟨by simp [Dim.segStart], ?_⟩
          intro hf
          rw [Nat.mul_div_cancel_left _ hcnt]
          rw [tot_cons] at hlt
          exact hreach (by simp [ha, hf]) (Nat.lt_of_mul_lt_mul_left hlt)
      · rw [Nat.div_eq_of_lt hlt, Nat.mod_eq_of_lt hlt, walk_unit p stop R hR hunit _ _ _ _ hS']
        obtain ⟨e1, e2⟩ := add_mod_div_of_lt hcnt hlt
        refine ⟨0, ?_, ?_, run_one _ _, by omega, ?_⟩
        · simp only [ok_bind, digits, Nat.add_zero, e1, e2, Nat.zero_mul]
        · rw [tot_cons]; omega
        · intro _ _
          rw [Nat.add_zero]
          refine ⟨?_, ?_⟩
          · rw [e1]
            have hfit := hd.fit
            have : d.cce (m % d.cnt) = m % d.cnt + 1 := by omega
            have := seg_boundary hd ho (by omega)
            simp only [Dim.segStart, Bool.or_eq_true, beq_iff_eq]
            right
            rw [← this]; congr 1; omega
          · intro hf
            have := (full_iff hd ho).1 hf
            omega
    · -- advance inside this dimension
      rw [if_neg (by
        rintro ⟨h1, h2⟩
        exact hnc h1)]
      rw [Nat.div_eq_of_lt hlt, Nat.mod_eq_of_lt hlt]
      simp only [hlt, decide_true, debugAssert_true, ok_bind]
      rw [add64_of_lt (by omega)]
      simp only [ok_bind]
      rw [f4]
      rw [sub64_of_le (by omega)]
      simp only [ok_bind]
      rw [show min (d.coff (m % d.cnt) + d.cs) d.shp - d.idx = d.cce (m % d.cnt) from rfl]
      rw [sub64_of_le (by omega)]
      simp only [ok_bind]
      -- number of positions gained in this dimension
      generalize hed : min d.cnt (d.cce (m % d.cnt)) - (m % d.cnt + 1) = e1
      have heS : e1 * S = e1 * P := by
        rcases hce with h | h
        · rw [hex h]
        · have : e1 = 0 := by omega
          simp [this]
      have hle1 : m + 1 + e1 ≤ d.cnt * tot R := by
        have h1 : m / d.cnt + 1 ≤ tot R := by
          have : m / d.cnt < tot R := by
            rw [Nat.div_lt_iff_lt_mul hcnt, Nat.mul_comm]; omega
          omega
        have h2 : d.cnt * (m / d.cnt + 1) ≤ d.cnt * tot R := Nat.mul_le_mul_left _ h1
        rw [Nat.mul_add] at h2
        omega
      have hsoff : P * (m + 1) + e1 * P = P * (m + 1 + e1) := by ring
      have hsle : P * (m + 1 + e1) ≤ stop := by
        rw [hstop]; exact Nat.mul_le_mul_left _ hle1
      rw [mul64_of_lt (by omega)]
      simp only [ok_bind]
      rw [heS]
      rw [add64_of_lt (by omega)]
      simp only [ok_bind]
      rw [add64_of_lt (by omega)]
      simp only [ok_bind]
      have hdivle : min d.cnt (d.cce (m % d.cnt)) / d.cnt ≤ 1 := by
        calc _ ≤ d.cnt / d.cnt := Nat.div_le_div_right (Nat.min_le_left _ _)
          _ = 1 := Nat.div_self hcnt
      rw [add64_of_lt (by unfold W; omega)]
      simp only [ok_bind, Nat.zero_add]
      rw [hsoff]
      by_cases hcont : d.idx = d.coff (m % d.cnt) ∧ d.cnt = d.cce (m % d.cnt) ∧
          P * (m + 1 + e1) < stop
      · -- the selection is one chunk here: go on with the next dimension
        rw [if_pos hcont]
        have hf : d.full = true := (full_iff hd ho).2 ⟨hcont.1, hcont.2.1⟩
        rw [← hcont.2.1, Nat.min_self, Nat.div_self hcnt, Nat.mod_self]
        rw [← hcont.2.1, Nat.min_self] at hed
        have em : m + 1 + e1 = d.cnt * (m / d.cnt + 1) := by rw [Nat.mul_add]; omega
        have hmR : m / d.cnt + 1 < tot R := by
          have h := hcont.2.2
          rw [em, hstop] at h
          exact Nat.lt_of_mul_lt_mul_left (Nat.lt_of_mul_lt_mul_left h)
        have eP : P * (m + 1 + e1) = P * d.cnt * (m / d.cnt + 1) := by rw [em, Nat.mul_assoc]
        have hS' : S * d.cs ≠ 1 := by
          intro h
          have h1 := Nat.eq_one_of_mul_eq_one_right h
          have h2 := Nat.eq_one_of_mul_eq_one_left h
          have := hcont.1
          omega
        obtain ⟨e', hw, hle, hrun, hpos, hreach⟩ := ih hR (ex && d.exact) al
          (P * d.cnt) (S * d.cs) (m / d.cnt) (adv + e1 * P) (hfull hf)
          (by intro h; exact (hr h).2 hf)
          (by
            intro h
            simp only [Bool.and_eq_true, Dim.exact, beq_iff_eq] at h
            rw [hex h.1, h.2.2])
          (Nat.mul_pos hP hcnt) hS' hmR (by rw [hstop, Nat.mul_assoc])
          (by rw [← eP]; omega)
        have eM : m + 1 + (e1 + d.cnt * e') = d.cnt * (m / d.cnt + 1 + e') := by
          rw [← Nat.add_assoc, em, ← Nat.mul_add]
        refine ⟨e1 + d.cnt * e', ?_, ?_, ?_, ?_, ?_⟩
        · rw [eP, hw, eM]
          simp only [ok_bind, digits, Nat.mul_mod_right, Nat.mul_div_cancel_left _ hcnt]
          congr 2
          · ring
          · ring
        · rw [eM, tot_cons]; exact Nat.mul_le_mul_left _ hle
        · by_cases h0 : e' = 0
          · rw [h0]
            apply run_row hd <;> omega
          · have hx := hpos (by omega)
            simp only [Bool.and_eq_true] at hx
            have := run_exact hd hx.2 hrun
            rwa [show d.cnt * (m / d.cnt + (1 + e')) - m = 1 + (e1 + d.cnt * e') by
              rw [← Nat.add_assoc, ← eM]; omega] at this
        · intro h
          by_cases h0 : e' = 0
          · rw [h0] at h
            rcases hce with h' | h'
            · exact h'
            · omega
          · have hx := hpos (by omega)
            simp only [Bool.and_eq_true] at hx
            exact hx.1
        · intro ha hlt
          rw [eM] at hlt ⊢
          refine ⟨by simp [Dim.segStart], ?_⟩
          intro hf
          rw [Nat.mul_div_cancel_left _ hcnt]
          rw [tot_cons] at hlt
          exact hreach ha (Nat.lt_of_mul_lt_mul_left hlt)
      · rw [if_neg hcont]
        simp only [hsle, decide_true, debugAssert_true, ok_bind]
        rw [carryRest_lane p _ R hR _ _ (by
          have h1 := Nat.div_le_self m d.cnt
          have h2 := Nat.le_mul_of_pos_left (m + 1 + e1) hP
          omega)]
        simp only [ok_bind]
        refine ⟨e1, ?_, by rw [tot_cons]; exact hle1, ?_, ?_, ?_⟩
        · congr 2
          simp only [digits]
          by_cases h : m % d.cnt + 1 + e1 < d.cnt
          · have hmin : min d.cnt (d.cce (m % d.cnt)) = m % d.cnt + (1 + e1) := by omega
            obtain ⟨g1, g2⟩ := add_mod_div_of_lt (m := m) (k := 1 + e1) hcnt (by omega)
            have h' : m % d.cnt + (1 + e1) < d.cnt := by omega
            rw [hmin, Nat.mod_eq_of_lt h', Nat.div_eq_of_lt h',
              show m + 1 + e1 = m + (1 + e1) by omega, g1, g2, Nat.add_zero]
          · have hmin : min d.cnt (d.cce (m % d.cnt)) = d.cnt := by omega
            have em : m + 1 + e1 = d.cnt * (m / d.cnt + 1) := by rw [Nat.mul_add]; omega
            rw [hmin, Nat.mod_self, Nat.div_self hcnt, em, Nat.mul_mod_right,
              Nat.mul_div_cancel_left _ hcnt]
        · apply run_row hd <;> omega
        · intro h
          rcases hce with h' | h'
          · exact h'
          · omega
        · intro ha hlt2
          by_cases h : m % d.cnt + 1 + e1 < d.cnt
          · obtain ⟨g1, g2⟩ := add_mod_div_of_lt (m := m) (k := 1 + e1) hcnt (by omega)
            rw [show m + 1 + e1 = m + (1 + e1) by omega]
            refine ⟨?_, ?_⟩
            · rw [g1]
              have := seg_boundary hd ho (by omega)
              simp only [Dim.segStart, Bool.or_eq_true, beq_iff_eq]
              right
              rw [← this]; congr 1; omega
            · intro hf
              have := (full_iff hd ho).1 hf
              omega
          · have em : m + 1 + e1 = d.cnt * (m / d.cnt + 1) := by rw [Nat.mul_add]; omega
            refine ⟨by rw [em]; simp [Dim.segStart], ?_⟩
            intro hf
            exfalso
            apply hcont
            refine ⟨((full_iff hd ho).1 hf).1, ((full_iff hd ho).1 hf).2, ?_⟩
            rw [hstop]
            rw [tot_cons] at hlt2
            exact Nat.mul_lt_mul_of_pos_left hlt2 hP

end Hidefix.Proofs
