import Verif.Spec.Within
import Verif.Proofs.RelSlices
import Verif.Proofs.SliceFacts

/-!
# The loop on a selection inside one chunk
-/

set_option autoImplicit false

namespace Hidefix.Proofs
open Hidefix Hidefix.Spec Outcome

/-- The dimension selects a part of one uncut chunk. -/
structure InChunk (d : Dim) : Prop where
  ok : DimOk d
  part : d.idx % d.cs + d.cnt ≤ d.cs
  whole : d.idx / d.cs * d.cs + d.cs ≤ d.shp

theorem InChunk.coff {d : Dim} (h : InChunk d) {o : Nat} (ho : o < d.cnt) : d.coff o = d.idx / d.cs * d.cs := by
  unfold Dim.coff
  have hp := h.part
  have hcs := h.ok.cs
  congr 1
  rw [Nat.add_div hcs, Nat.div_eq_of_lt (a := o) (by omega), Nat.mod_eq_of_lt (a := o) (by omega),
    if_neg (by omega)]
  omega

theorem InChunk.csz {d : Dim} (h : InChunk d) {o : Nat} (ho : o < d.cnt) : d.csz o = d.cs := by
  unfold Dim.csz
  rw [h.coff ho]
  have := h.whole
  omega

theorem InChunk.cce {d : Dim} (h : InChunk d) {o : Nat} (ho : o < d.cnt) : d.cnt ≤ d.cce o := by
  unfold Dim.cce
  rw [h.coff ho]
  have h1 := h.whole
  have h2 := h.part
  have := Nat.div_add_mod d.idx d.cs
  rw [Nat.mul_comm] at this
  omega

theorem InChunk.seg {d : Dim} (h : InChunk d) {o : Nat} (ho : o < d.cnt) (hs : d.segStart o = true) :
    o = 0 := by
  simp only [Dim.segStart, Bool.or_eq_true, beq_iff_eq] at hs
  rcases hs with hs | hs
  · exact hs
  · have := h.part
    have hcs := h.ok.cs
    by_contra hne
    have e : (d.idx + o) % d.cs = d.idx % d.cs + o := by
      rw [Nat.add_mod, Nat.mod_eq_of_lt (a := o) (by omega), Nat.mod_eq_of_lt (by omega)]
    omega

theorem InChunk.exact {d : Dim} (h : InChunk d) : d.exact = decide (d.cnt = d.cs) := by
  rw [Bool.eq_iff_iff]
  simp only [Dim.exact, Bool.and_eq_true, beq_iff_eq, decide_eq_true_eq]
  have := h.part
  omega

theorem InChunk.full {d : Dim} (h : InChunk d) : d.full = decide (d.cnt = d.cs) := by
  rw [Bool.eq_iff_iff]
  simp only [Dim.full, Bool.and_eq_true, beq_iff_eq, decide_eq_true_eq]
  have h1 := h.part
  have h2 := h.whole
  have := Nat.div_add_mod d.idx d.cs
  rw [Nat.mul_comm] at this
  omega

theorem tot_eq_one {L : List Dim} : tot L = 1 ↔ ∀ d ∈ L, d.cnt = 1 := by
  unfold tot
  induction L with
  | nil => simp
  | cons d R ih => simp [ih]

/-- What `SingledOut` says of the dimensions, innermost first. -/
def Single (L : List Dim) : Prop :=
  ∃ E x S, L = E ++ x :: S ∧ (∀ e ∈ E, e.cnt = e.cs) ∧ x.cnt = 1 ∧ 1 < x.cs ∧ ∃ y ∈ S, y.cnt ≠ 1

theorem single_cons {d : Dim} {R : List Dim} :
    Single (d :: R) ↔ (d.cnt = 1 ∧ 1 < d.cs ∧ ∃ y ∈ R, y.cnt ≠ 1) ∨ (d.cnt = d.cs ∧ Single R) := by
  constructor
  · rintro ⟨E, x, S, h, h1, h2, h3, h4⟩
    cases E with
    | nil =>
      obtain ⟨rfl, rfl⟩ := List.cons.inj h
      exact .inl ⟨h2, h3, h4⟩
    | cons e E =>
      obtain ⟨rfl, rfl⟩ := List.cons.inj h
      exact .inr ⟨h1 d (by simp), E, x, S, rfl, fun e he => h1 e (by simp [he]), h2, h3, h4⟩
  · rintro (⟨h2, h3, h4⟩ | ⟨h, E, x, S, rfl, h1, h2, h3, h4⟩)
    · exact ⟨[], d, R, rfl, by simp, h2, h3, h4⟩
    · exact ⟨d :: E, x, S, rfl, by simpa [h] using h1, h2, h3, h4⟩

theorem okFrom_inside {L : List Dim} (hL : ∀ d ∈ L, InChunk d) :
    okFrom true false L = true ↔ ¬ Single L := by
  induction L with
  | nil => simp [okFrom, Single]
  | cons d R ih =>
    have hd := hL d (by simp)
    have ih := ih fun x hx => hL x (by simp [hx])
    have hcnt := hd.ok.cnt
    have hall : ∀ f : Nat → Bool, ((List.range d.cnt).all fun o => !(false || d.segStart o) || f o) = true ↔
        f 0 = true := by
      intro f
      rw [List.all_eq_true]
      constructor
      · intro h
        simpa [Dim.segStart] using h 0 (by simpa using hcnt)
      · intro h o ho
        rw [List.mem_range] at ho
        by_cases hs : d.segStart o = true
        · obtain rfl := hd.seg ho hs
          simp [h]
        · simp [hs]
    rw [okFrom, Bool.or_eq_true]
    simp only [Bool.or_assoc]
    rw [hall]
    simp only [hd.csz hcnt, hd.exact, hd.full, Bool.true_and, Bool.false_or, Nat.zero_add]
    rw [single_cons]
    by_cases ht : tot (d :: R) = 1
    · have h1 := tot_eq_one.1 ht
      simp only [ht, beq_self_eq_true, true_or, true_iff]
      rintro (⟨-, -, y, hy, h⟩ | ⟨-, E, x, S, rfl, -, -, -, y, hy, h⟩)
      · exact h (h1 y (by simp [hy]))
      · exact h (h1 y (by simp [hy]))
    · have htn : (tot (d :: R) == 1) = false := by simpa using ht
      rw [htn]
      simp only [Bool.false_eq_true, false_or]
      have hp := hd.part
      by_cases hc : d.cs = 1
      · have h1 : d.cnt = 1 := by omega
        have hR : ¬ tot R = 1 := fun h => ht (by
          rw [tot_eq_one] at h ⊢
          intro x hx
          rcases List.mem_cons.1 hx with rfl | hx
          · exact h1
          · exact h x hx)
        have hRn : (tot R == 1) = false := by simpa using hR
        simp [hc, h1, hRn, ih]
      · have hcs := hd.ok.cs
        by_cases h1 : d.cnt = 1
        · have hR : ¬ ∀ x ∈ R, x.cnt = 1 := fun h => ht (by
            rw [tot_eq_one]
            intro x hx
            rcases List.mem_cons.1 hx with rfl | hx
            · exact h1
            · exact h x hx)
          have hRn : (tot R == 1) = false := by
            rw [← tot_eq_one] at hR
            simpa using hR
          push Not at hR
          have hlt : 1 < d.cs := by omega
          simp only [h1, hRn, hc, beq_self_eq_true, Bool.and_false, Bool.false_or, beq_iff_eq, if_false,
            Nat.lt_irrefl, decide_false, Bool.false_and, Bool.false_eq_true, false_iff, not_not]
          exact .inl ⟨trivial, hlt, hR⟩
        · have hlt : 1 < d.cnt := by omega
          have h1n : (1 == d.cnt) = false := by simpa using fun h => h1 h.symm
          have hcn : (d.cs == 1) = false := by simpa using hc
          by_cases hf : d.cnt = d.cs
          · have h1c : ¬ 1 = d.cs := by omega
            have h2c : 1 < d.cs := by omega
            simp [hf, hc, ih, h1c, h2c]
          · simp [hf, hcn, h1, h1n, hlt]

/-- What `Overrun` says of the dimensions. -/
def Over (c : Nat) (L : List Dim) : Prop := Overrun c (L.map fun d => (d.cs, d.cnt))

theorem over_cons {c : Nat} {d : Dim} {R : List Dim} : Over c (d :: R) ↔
    if d.cs = 1 then Over c R else d.cnt ≤ c ∧ if d.cnt = d.cs then Over (c / d.cnt + 1) R else ∃ y ∈ R, y.cnt ≠ 1 := by
  unfold Over
  rw [List.map_cons, Overrun]
  simp

theorem single_many {R : List Dim} (h : Single R) : ∃ y ∈ R, y.cnt ≠ 1 := by
  obtain ⟨E, x, S, rfl, -, -, -, y, hy, h⟩ := h
  exact ⟨y, by simp [hy], h⟩

theorem okRun_inside {p : Profile} {L : List Dim} (hL : ∀ d ∈ L, InChunk d) : ∀ {c : Nat}, 1 ≤ c →
    (okRun p c L = true ↔ ¬ (Single L ∨ Over c L)) := by
  induction L with
  | nil => simp [okRun, Single, Over, Overrun]
  | cons d R ih =>
    intro c hc
    have hd := hL d (by simp)
    have hR : ∀ x ∈ R, InChunk x := fun x hx => hL x (by simp [hx])
    have ih : ∀ {c : Nat}, 1 ≤ c → (okRun p c R = true ↔ ¬ (Single R ∨ Over c R)) := ih hR
    have hcnt := hd.ok.cnt
    have hcs := hd.ok.cs
    have hpart := hd.part
    rw [okRun, over_cons, single_cons]
    by_cases h1 : d.cs = 1
    · have h2 : d.cnt = 1 := by omega
      have hu : d.unit = true := by simp [Dim.unit, h1, h2]
      rw [if_pos hu, ih hc, if_pos h1]
      simp [h1, h2]
    · have hu : ¬ d.unit = true := by simp [Dim.unit, h1]
      rw [if_neg hu, if_neg h1, hd.exact, hd.full]
      by_cases he : d.cnt = d.cs ∧ d.cnt ≤ c
      · rw [if_pos (by simpa using he), if_pos he.1, ih (Nat.le_add_left 1 _)]
        have h3 : d.cnt ≠ 1 := by omega
        have e1 : (d.cnt = 1 ∧ 1 < d.cs ∧ ∃ y ∈ R, y.cnt ≠ 1) ↔ False := ⟨fun h => h3 h.1, False.elim⟩
        rw [e1, false_or, and_iff_right he.1, and_iff_right he.2]
      · rw [if_neg (by simpa using he)]
        have hokR := okFrom_inside hR
        rw [Bool.and_eq_true, List.all_eq_true]
        have hcc := hd.cce hcnt
        have htot := tot_eq_one (L := R)
        have hall : (∀ o ∈ List.range d.cnt, (!d.segStart o || (decide (o + c < d.cnt) &&
            (p == .release || decide (o + c ≤ d.cce o))) || (tot R == 1 && decide (d.cnt ≤ d.cce o))) = true) ↔
            (c < d.cnt ∨ ∀ y ∈ R, y.cnt = 1) := by
          constructor
          · intro h
            have h := h 0 (by simpa using hcnt)
            simp only [Dim.segStart, beq_self_eq_true, Bool.true_or, Bool.not_true, Nat.zero_add, Bool.false_or,
              Bool.or_eq_true, Bool.and_eq_true, decide_eq_true_eq, beq_iff_eq] at h
            rcases h with h | h
            · exact .inl h.1
            · exact .inr (htot.1 h.1)
          · intro h o ho
            rw [List.mem_range] at ho
            by_cases hs : d.segStart o = true
            · obtain rfl := hd.seg ho hs
              rcases h with h | h
              · have a2 : c ≤ d.cce 0 := by omega
                simp [h, a2]
              · simp [htot.2 h, hcc]
            · simp [hs]
        rw [hall]
        by_cases hf : d.cnt = d.cs
        · have hlt : ¬ d.cnt ≤ c := fun h => he ⟨hf, h⟩
          have h3 : d.cnt ≠ 1 := by omega
          have h4 : c < d.cnt := by omega
          simp only [hf, decide_true, Bool.not_true, Bool.false_or, Bool.or_eq_true, beq_iff_eq, hokR, true_and]
          rw [← hf]
          simp only [h4, true_or, true_and, h3, false_and, false_or, hlt, or_false]
          constructor
          · rintro (h | h)
            · intro hs
              obtain ⟨y, hy, h5⟩ := single_many hs
              exact h5 (htot.1 h y hy)
            · exact h
          · exact .inr
        · simp only [hf, decide_false, Bool.not_false, Bool.true_or, and_true, false_and, or_false, if_false]
          constructor
          · rintro (h | h) (⟨a, -, y, hy, h5⟩ | ⟨a, y, hy, h5⟩)
            · omega
            · omega
            · exact h5 (h y hy)
            · exact h5 (h y hy)
          · intro h
            by_contra hn
            push Not at hn
            exact h (.inr ⟨hn.1, hn.2⟩)

/-- The number of innermost dimensions where the chunk has one index. -/
def lead (L : List Dim) : Nat := ((L.map Dim.cs).takeWhile (· == 1)).length

theorem goodFrom_inside {p : Profile} {L : List Dim} (hL : ∀ d ∈ L, InChunk d) : ∀ {k : Nat}, 1 ≤ k →
    (goodFrom p k L = true ↔ ¬ (Single L ∨ Over (k + lead L) L)) := by
  induction L with
  | nil => simp [goodFrom, Single, Over, Overrun]
  | cons d R ih =>
    intro k hk
    have hd := hL d (by simp)
    have hcnt := hd.ok.cnt
    have hcs := hd.ok.cs
    have hpart := hd.part
    rw [goodFrom]
    by_cases h1 : d.cs = 1
    · have h2 : d.cnt = 1 := by omega
      have hu : d.unit = true := by simp [Dim.unit, h1, h2]
      have hl : k + lead (d :: R) = k + 1 + lead R := by
        simp [lead, h1]
        omega
      rw [if_pos hu, ih (fun x hx => hL x (by simp [hx])) (by omega), hl, over_cons, if_pos h1, single_cons]
      simp [h1, h2]
    · have hu : ¬ d.unit = true := by simp [Dim.unit, h1]
      have hl : lead (d :: R) = 0 := by simp [lead, h1]
      rw [if_neg hu, hl, okRun_inside hL hk, Nat.add_zero]

/-- A selection inside one chunk is good unless it singles out an index or takes too few. -/
theorem good_inside {p : Profile} {L : List Dim} (hL : ∀ d ∈ L, InChunk d) :
    good p L = true ↔ ¬ ((∃ E x S, L = E ++ x :: S ∧ E ≠ [] ∧ (∀ e ∈ E, e.cnt = e.cs) ∧ x.cnt = 1 ∧ 1 < x.cs ∧
      ∃ y ∈ S, y.cnt ≠ 1) ∨ Over (lead L) L) := by
  have key : ∀ d R, L = d :: R → ((∃ E x S, L = E ++ x :: S ∧ E ≠ [] ∧ (∀ e ∈ E, e.cnt = e.cs) ∧ x.cnt = 1 ∧
      1 < x.cs ∧ ∃ y ∈ S, y.cnt ≠ 1) ↔ (d.cnt = d.cs ∧ Single R)) := by
    rintro d R rfl
    constructor
    · rintro ⟨E, x, S, h, h0, h1, h2, h3, h4⟩
      cases E with
      | nil => exact absurd rfl h0
      | cons e E =>
        obtain ⟨rfl, rfl⟩ := List.cons.inj h
        exact ⟨h1 d (by simp), E, x, S, rfl, fun e he => h1 e (by simp [he]), h2, h3, h4⟩
    · rintro ⟨h, E, x, S, rfl, h1, h2, h3, h4⟩
      exact ⟨d :: E, x, S, rfl, by simp, by simpa [h] using h1, h2, h3, h4⟩
  cases L with
  | nil => simp [good, goodFrom, Over, Overrun]
  | cons d R =>
    rw [key d R rfl]
    have hd := hL d (by simp)
    have hcnt := hd.ok.cnt
    have hcs := hd.ok.cs
    have hpart := hd.part
    by_cases h1 : d.cs = 1
    · have h2 : d.cnt = 1 := by omega
      have hu : d.unit = true := by simp [Dim.unit, h1, h2]
      have hl : lead (d :: R) = 1 + lead R := by
        simp [lead, h1]
        omega
      rw [good, goodFrom, if_pos hu, goodFrom_inside (fun x hx => hL x (by simp [hx])) (by omega), hl, over_cons,
        if_pos h1]
      simp [h1, h2]
    · have hu : ¬ d.unit = true := by simp [Dim.unit, h1]
      have hl : lead (d :: R) = 0 := by simp [lead, h1]
      rw [hl, over_cons, if_neg h1, good, goodFrom, if_neg hu, okRun, if_neg hu, if_neg (by simp; omega)]
      have hn : ¬ d.cnt ≤ 0 := by omega
      simp only [hn, false_and, or_false]
      have hokR := okFrom_inside (L := R) fun x hx => hL x (by simp [hx])
      rw [Bool.and_eq_true, List.all_eq_true]
      have hcc := hd.cce hcnt
      constructor
      · rintro ⟨-, h2⟩ ⟨g1, g2⟩
        rw [hd.full, hd.exact] at h2
        simp only [g1, decide_true, Bool.not_true, Bool.false_or, Bool.or_eq_true, beq_iff_eq, hokR] at h2
        rcases h2 with h2 | h2
        · obtain ⟨y, hy, hy1⟩ := single_many g2
          exact hy1 (tot_eq_one.1 h2 y hy)
        · exact h2 g2
      · intro h
        push Not at h
        refine ⟨fun o ho => ?_, ?_⟩
        · rw [List.mem_range] at ho
          have := hd.cce ho
          have a1 : o ≤ d.cce o := by omega
          simp [ho, a1]
        · rw [hd.full, hd.exact]
          by_cases hf : d.cnt = d.cs
          · simp [hf, hokR.2 (h hf)]
          · simp [hf]

/-- If the chunk has more than one index in one of the last two dimensions, taking too few is singling out an index. -/
theorem over_single {L : List Dim} (hL : ∀ d ∈ L, InChunk d)
    (h11 : ∀ d d' R, L = d :: d' :: R → ¬ (d.cs = 1 ∧ d'.cs = 1)) (h : Over (lead L) L) :
    ∃ E x S, L = E ++ x :: S ∧ E ≠ [] ∧ (∀ e ∈ E, e.cnt = e.cs) ∧ x.cnt = 1 ∧ 1 < x.cs ∧ ∃ y ∈ S, y.cnt ≠ 1 := by
  cases L with
  | nil => exact h.elim
  | cons d R =>
    have hd := hL d (by simp)
    have hcnt := hd.ok.cnt
    have hpart := hd.part
    rw [over_cons] at h
    by_cases h1 : d.cs = 1
    · rw [if_pos h1] at h
      cases R with
      | nil => exact h.elim
      | cons d' R =>
        have hd' := hL d' (by simp)
        have hcnt' := hd'.ok.cnt
        have hcs' := hd'.ok.cs
        have h2 : d'.cs ≠ 1 := fun h2 => h11 d d' R rfl ⟨h1, h2⟩
        have hl : lead (d :: d' :: R) = 1 := by simp [lead, h1, h2]
        rw [hl, over_cons, if_neg h2] at h
        have h3 : d'.cnt = 1 := by omega
        rw [if_neg (by omega)] at h
        exact ⟨[d], d', R, rfl, by simp, by simp; omega, h3, by omega, h.2⟩
    · have hl : lead (d :: R) = 0 := by simp [lead, h1]
      rw [hl, if_neg h1] at h
      omega

/-- InChunk one chunk the loop never takes rows back, so it moves by at least one element. -/
theorem walk_inside {stop c adv soff S m : Nat} {L : List Dim} (hL : ∀ d ∈ L, InChunk d) (hS : 0 < S)
    (hroom : Room stop S L) (hs : soff < stop) (ha : adv ≤ soff) (hstop : stop < 2 ^ 62) {w : WalkOut}
    (h : walk .release stop c adv soff (lanesAt S L m) = ok w) :
    adv ≤ w.adv ∧ w.adv ≤ w.soff ∧ w.soff < 2 ^ 62 ∧ (S = 1 → L ≠ [] → adv < w.adv) := by
  induction L generalizing c adv soff S m w with
  | nil =>
    have := Outcome.ok.inj h
    subst this
    exact ⟨Nat.le_refl _, ha, Nat.lt_trans hs hstop, fun _ h => absurd rfl h⟩
  | cons d R ih =>
    have hd := hL d (by simp)
    have hR := fun x hx => hL x (List.mem_cons_of_mem d hx)
    have hcnt := hd.ok.cnt
    have ho : m % d.cnt < d.cnt := Nat.mod_lt _ hcnt
    obtain ⟨f1, f2, f3, f4, f5, f6, f7⟩ := dim_facts hd.ok ho
    have hfit := hd.ok.fit
    have hcc := hd.cce ho
    have hW : W = 2 ^ 64 := by decide
    have h62 : (2 : Nat) ^ 62 = 4611686018427387904 := by decide
    have h64 : (2 : Nat) ^ 64 = 18446744073709551616 := by decide
    obtain ⟨r1, r2⟩ := hroom
    have hS' : 0 < S * d.cs := Nat.mul_pos hS hd.ok.cs
    simp only [lanesAt, walk] at h
    rw [cutSize_lane hd.ok ho] at h
    simp only [ok_bind] at h
    rw [add64_release, ok_bind] at h
    generalize hcur : (m % d.cnt + c) % W % d.cnt = cur at h
    have hcurlt : cur < d.cnt := by rw [← hcur]; exact Nat.mod_lt _ hcnt
    split at h
    · rename_i hsk
      obtain ⟨r, h2, h⟩ := bind_eq_ok.1 h
      have := Outcome.ok.inj h
      subst this
      obtain ⟨i1, i2, i3, i4⟩ := ih hR hS' r2 hs ha h2
      exact ⟨i1, i2, i3, fun h => absurd h hsk.2⟩
    · rw [debugAssert_release, ok_bind] at h
      rw [add64_of_lt (by omega)] at h
      simp only [ok_bind] at h
      rw [f4, sub64_of_le (by omega)] at h
      simp only [ok_bind] at h
      rw [show min (d.coff (m % d.cnt) + d.cs) d.shp - d.idx = d.cce (m % d.cnt) from rfl,
        Nat.min_eq_left hcc, sub64_of_le (by omega), ok_bind] at h
      have hle : (d.cnt - cur) * S ≤ d.cnt * S := Nat.mul_le_mul_right _ (by omega)
      have hge : 1 * 1 ≤ (d.cnt - cur) * S := Nat.mul_le_mul (by omega) hS
      rw [mul64_of_lt (by omega), ok_bind] at h
      generalize (d.cnt - cur) * S = diff at *
      rw [add64_of_lt (by omega), ok_bind, add64_of_lt (by omega), ok_bind, add64_release, ok_bind] at h
      split at h
      · rename_i hgo
        obtain ⟨r, h2, h⟩ := bind_eq_ok.1 h
        have := Outcome.ok.inj h
        subst this
        obtain ⟨i1, i2, i3, -⟩ := ih hR hS' r2 hgo.2.2 (by omega) h2
        exact ⟨by simp only; omega, i2, i3, fun _ _ => by simp only; omega⟩
      · rw [debugAssert_release, ok_bind] at h
        obtain ⟨_, -, h⟩ := bind_eq_ok.1 h
        have := Outcome.ok.inj h
        subst this
        exact ⟨by simp only; omega, by simp only; omega, by simp only; omega, fun _ _ => by simp only; omega⟩

theorem trace_pos {ds : Dataset} {L : List Dim} (h : Sel .release ds L) (hne : L ≠ [])
    (hL : ∀ d ∈ L, InChunk d) (hroom : Room (tot L) 1 L) (hstop : tot L < 2 ^ 62)
    (hchunk : (L.map Dim.cs).prod < 2 ^ 62) (fuel n q : Nat) {items : List Item} {e : Outcome Unit}
    (ht : Slicer.trace .release ds fuel (stateOff L n q) = ⟨items, e⟩) :
    ∀ it ∈ items, it.start < it.stop := by
  have hW : W = 2 ^ 64 := by decide
  have h62 : (2 : Nat) ^ 62 = 4611686018427387904 := by decide
  have h64 : (2 : Nat) ^ 64 = 18446744073709551616 := by decide
  induction fuel generalizing n q items e with
  | zero =>
    simp only [Slicer.trace, Trace.mk.injEq] at ht
    obtain ⟨rfl, -⟩ := ht
    simp
  | succ fuel ih =>
    simp only [Slicer.trace] at ht
    match hx : (stateOff L n q).next .release ds with
    | err e => rw [hx] at ht; simp only [Trace.mk.injEq] at ht; obtain ⟨rfl, -⟩ := ht; simp
    | .panic f => rw [hx] at ht; simp only [Trace.mk.injEq] at ht; obtain ⟨rfl, -⟩ := ht; simp
    | ub => rw [hx] at ht; simp only [Trace.mk.injEq] at ht; obtain ⟨rfl, -⟩ := ht; simp
    | diverge => rw [hx] at ht; simp only [Trace.mk.injEq] at ht; obtain ⟨rfl, -⟩ := ht; simp
    | ok none => rw [hx] at ht; simp only [Trace.mk.injEq] at ht; obtain ⟨rfl, -⟩ := ht; simp
    | ok (some (it, s')) =>
      rw [hx] at ht
      simp only [Trace.mk.injEq] at ht
      obtain ⟨rfl, -⟩ := ht
      rcases Nat.lt_or_ge n (tot L) with hn | hn
      swap
      · unfold Slicer.next at hx
        rw [if_pos (by simpa [stateOff] using hn)] at hx
        simp at hx
      obtain ⟨w, hoff, hst, hsp, hw, rfl⟩ := next_invR h hne hn hx
      obtain ⟨-, g2, g3, g4⟩ := walk_inside hL Nat.one_pos hroom hn (Nat.zero_le _) hstop hw
      have g4 := g4 rfl hne
      have hp := pos_lt L h.dims q
      obtain ⟨q', hq', hoffs⟩ := digits_surj (walk_lt h.dims hw)
      have hs' : ({ stateOff L n q with offset := w.soff, coords := w.offs.reverse } : Slicer)
          = stateOff L w.soff q' := by
        simp only [stateOff, hoffs]
      rw [hs']
      intro it' hit
      rcases List.mem_cons.1 hit with rfl | hit
      · rw [hst, hsp, Nat.mod_eq_of_lt (by omega)]
        omega
      · exact ih w.soff q' rfl it' hit

end Hidefix.Proofs
