import Verif.Proofs.Uncut
import Verif.Spec.Uncut

/-!
# Which selections that meet no cut chunk are good
-/

set_option autoImplicit false

namespace Hidefix.Proofs
open Hidefix Hidefix.Spec Outcome

/-- What `Astray` says of a dimension `x` and those outside of it (innermost first). -/
def BadHere (x : Dim) (S : List Dim) : Prop :=
  (1 < x.cs ∧ x.segStart (x.cnt - 1) = true ∧ ∃ y ∈ S, y.cnt ≠ 1) ∨
  (x.cs = 1 ∧ 1 < x.cnt ∧ ∃ y ∈ S, y.allunit = false)

def Astr (L : List Dim) : Prop :=
  ∃ E x S, L = E ++ x :: S ∧ (∀ e ∈ E, e.exact = true) ∧ BadHere x S

theorem astr_cons {d : Dim} {R : List Dim} :
    Astr (d :: R) ↔ BadHere d R ∨ (d.exact = true ∧ Astr R) := by
  constructor
  · rintro ⟨E, x, S, h, h1, h2⟩
    cases E with
    | nil =>
      obtain ⟨rfl, rfl⟩ := List.cons.inj h
      exact .inl h2
    | cons e E =>
      obtain ⟨rfl, rfl⟩ := List.cons.inj h
      exact .inr ⟨h1 d (by simp), E, x, S, rfl, fun e he => h1 e (by simp [he]), h2⟩
  · rintro (h2 | ⟨h, E, x, S, rfl, h1, h2⟩)
    · exact ⟨[], d, R, rfl, by simp, h2⟩
    · exact ⟨d :: E, x, S, rfl, by simpa [h] using h1, h2⟩

theorem badHere_nil (d : Dim) : ¬ BadHere d [] := by
  rintro (⟨-, -, y, hy, -⟩ | ⟨-, -, y, hy, -⟩) <;> simp at hy

theorem astr_nil : ¬ Astr [] := by
  rintro ⟨E, x, S, h, -⟩
  simp at h

theorem tot_ne_one {L : List Dim} : tot L ≠ 1 ↔ ∃ d ∈ L, d.cnt ≠ 1 := by
  rw [Ne, tot_eq_one]
  push Not
  rfl

theorem okFrom_one {L : List Dim} (ex al : Bool) (h : tot L = 1) : okFrom ex al L = true := by
  cases L with
  | nil => rfl
  | cons d R => rw [okFrom, h]; rfl

theorem okFrom_allunit {L : List Dim} (ex al : Bool) (h : L.all Dim.allunit = true) : okFrom ex al L = true := by
  induction L generalizing ex al with
  | nil => rfl
  | cons d R ih =>
    rw [List.all_cons, Bool.and_eq_true] at h
    have h1 := h.1
    rw [Dim.allunit, List.all_eq_true] at h1
    rw [okFrom, Bool.or_eq_true, List.all_eq_true]
    right
    intro o ho
    have h1 := h1 o ho
    rw [beq_iff_eq] at h1
    rw [h1]
    simp only [beq_self_eq_true, if_true]
    split
    · rw [ih _ _ h.2]; simp
    · rw [h.2]; simp

theorem Whole.full {d : Dim} (hd : DimOk d) (h : Whole d) : d.full = d.exact := by
  have hw := h 0 hd.cnt
  obtain ⟨f1, f2, -, f4, -, -, -⟩ := dim_facts hd hd.cnt
  have hcs := hd.cs
  rw [Bool.eq_iff_iff]
  simp only [Dim.full, Dim.exact, Bool.and_eq_true, beq_iff_eq]
  constructor
  · rintro ⟨h1, h2⟩
    have : d.coff 0 = d.idx := by
      unfold Dim.coff
      have := Nat.div_add_mod d.idx d.cs
      rw [Nat.mul_comm] at this
      simp only [Nat.add_zero]
      omega
    exact ⟨h1, by omega⟩
  · rintro ⟨h1, h2⟩
    have := hd.fit
    exact ⟨h1, by omega⟩

theorem okFrom_uncut {L : List Dim} (hok : ∀ d ∈ L, DimOk d) (hL : WholeInner L) :
    okFrom true false L = true ↔ ¬ Astr L := by
  induction L with
  | nil => simp [okFrom, astr_nil]
  | cons d R ih =>
    have hd := hok d (by simp)
    have ih := ih (fun x hx => hok x (by simp [hx])) hL.tail
    have hcnt := hd.cnt
    by_cases ht : tot (d :: R) = 1
    · rw [okFrom_one _ _ ht]
      simp only [true_iff]
      have h1 := tot_eq_one.1 ht
      rintro ⟨E, x, S, he, -, ⟨-, -, y, hy, h⟩ | ⟨-, h, -⟩⟩
      · exact h (h1 y (by rw [he]; simp [hy]))
      · have := h1 x (by rw [he]; simp)
        omega
    rw [okFrom, Bool.or_eq_true, List.all_eq_true]
    have htn : (tot (d :: R) == 1) = false := by simpa using ht
    rw [htn]
    simp only [Bool.false_eq_true, false_or, Bool.true_and, Bool.true_or, List.mem_range, Bool.and_true]
    rw [astr_cons]
    cases R with
    | nil =>
      simp only [badHere_nil, astr_nil, false_or, and_false, not_false_eq_true, iff_true]
      intro o ho
      have ht1 : (tot [] == 1) = true := rfl
      rw [ht1]
      by_cases hl : o + 1 = d.cnt
      · simp [hl]
      · have : o + 1 < d.cnt := by omega
        simp [this, okFrom]
    | cons e R =>
      have hw := hL.head
      have hfull := hw.full hd
      rw [hfull]
      generalize e :: R = R at *
      have hcs := hd.cs
      by_cases hc : d.cs = 1
      · have hcsz : ∀ o, o < d.cnt → d.csz o = 1 := fun o ho => by rw [hw o ho, hc]
        have hseg : ∀ o, d.segStart o = true := fun o => by simp [Dim.segStart, hc, Nat.mod_one]
        have hid : d.idx % d.cs = 0 := by rw [hc, Nat.mod_one]
        by_cases h1 : d.cnt = 1
        · have hex : d.exact = true := by simp [Dim.exact, h1, hc, Nat.mod_one]
          have hR : tot R ≠ 1 := fun h => ht (by
            rw [tot_eq_one] at h ⊢
            intro x hx
            rcases List.mem_cons.1 hx with rfl | hx
            · exact h1
            · exact h x hx)
          have hnb : ¬ BadHere d R := by
            rintro (⟨h, -⟩ | ⟨-, h, -⟩) <;> omega
          simp only [hnb, false_or, hex, true_and, ← ih]
          constructor
          · intro h
            have h := h 0 hcnt
            rw [hseg, hcsz 0 hcnt] at h
            simpa [h1, hR] using h
          · intro h o ho
            have : o = 0 := by omega
            subst this
            rw [hcsz 0 ho, h1]
            simp [h]
        · have hex : d.exact = false := by simp [Dim.exact, hid, hc, h1]
          rw [hex]
          simp only [Bool.false_eq_true, false_and, or_false]
          constructor
          · rintro h (⟨g, -⟩ | ⟨-, -, y, hy, g⟩)
            · omega
            · have h := h 0 hcnt
              have hne : ¬ 0 + 1 = d.cnt := by omega
              rw [hseg, hcsz 0 hcnt] at h
              simp only [Bool.not_true, Bool.false_or, beq_self_eq_true, if_true, beq_iff_eq, hne, Bool.or_eq_true, Bool.and_eq_true, if_false, decide_false, false_and, false_or] at h
              rw [List.all_eq_true] at h
              rw [h y hy] at g
              simp at g
          · intro h o ho
            have hall : R.all Dim.allunit = true := by
              rw [List.all_eq_true]
              intro y hy
              by_contra hg
              exact h (.inr ⟨hc, by omega, y, hy, by simpa using hg⟩)
            rw [hcsz o ho]
            simp only [beq_self_eq_true, if_true, hall]
            rw [okFrom_allunit _ _ hall]
            simp
      · have hcsz : ∀ o, o < d.cnt → d.csz o ≠ 1 := fun o ho => by rw [hw o ho]; exact hc
        by_cases hlast : d.segStart (d.cnt - 1) = true
        · by_cases hR : tot R = 1
          · have hnb : ¬ BadHere d R := by
              rintro (⟨-, -, h⟩ | ⟨h, -⟩)
              · exact tot_ne_one.2 h hR
              · exact hc h
            have hnA : ¬ Astr R := ih.1 (okFrom_one _ _ hR)
            simp only [hnb, hnA, and_false, or_false, not_false_eq_true, iff_true]
            intro o ho
            have hcz := hcsz o ho
            by_cases hl : o + 1 = d.cnt
            · simp [hl, hR]
            · have : o + 1 < d.cnt := by omega
              simp [hcz, this, okFrom_one _ _ hR]
          · have hb : BadHere d R := .inl ⟨by omega, hlast, tot_ne_one.1 hR⟩
            simp only [hb, true_or, not_true_eq_false, iff_false]
            intro h
            have h := h (d.cnt - 1) (by omega)
            have hcz := hcsz (d.cnt - 1) (by omega)
            have : d.cnt - 1 + 1 = d.cnt := by omega
            simp [hlast, hR, hcz, this] at h
        · have hnb : ¬ BadHere d R := by
            rintro (⟨-, h, -⟩ | ⟨h, -⟩)
            · exact hlast h
            · exact hc h
          have h0 : d.cnt ≠ 1 := fun h => hlast (by rw [h]; rfl)
          simp only [hnb, false_or]
          constructor
          · rintro h ⟨hex, hA⟩
            have h := h 0 hcnt
            have hcz := hcsz 0 hcnt
            have hne : ¬ 1 = d.cnt := by omega
            have hok : okFrom true false R = false := by
              by_contra hh
              exact ih.1 (by simpa using hh) hA
            simp [Dim.segStart, hcz, hne, hex, hok] at h
          · intro h o ho
            have hcz := hcsz o ho
            by_cases hs : d.segStart o = true
            · have hl : o + 1 ≠ d.cnt := fun hl => hlast (by rw [← hl]; exact hs)
              have : o + 1 < d.cnt := by omega
              by_cases hex : d.exact = true
              · have : okFrom true false R = true := ih.2 fun hA => h ⟨hex, hA⟩
                simp [hcz, hex, this, *]
              · simp [hcz, hex, *]
            · simp [hs]

theorem good_uncut_thick {p : Profile} {L : List Dim} (hok : ∀ d ∈ L, DimOk d) (hL : WholeInner L)
    (h11 : ∀ d d' R, L = d :: d' :: R → ¬ (d.unit = true ∧ d'.cs = 1)) :
    good p L = true ↔ ¬ ∃ E x S, L = E ++ x :: S ∧ E ≠ [] ∧ (∀ e ∈ E, e.exact = true) ∧ BadHere x S := by
  have key : ∀ d R, L = d :: R → ((¬ ∃ E x S, L = E ++ x :: S ∧ E ≠ [] ∧ (∀ e ∈ E, e.exact = true) ∧
      BadHere x S) ↔ ¬ (d.exact = true ∧ Astr R)) := by
    rintro d R rfl
    rw [not_iff_not]
    constructor
    · rintro ⟨E, x, S, h, h0, h1, h2⟩
      cases E with
      | nil => exact absurd rfl h0
      | cons e E =>
        obtain ⟨rfl, rfl⟩ := List.cons.inj h
        exact ⟨h1 d (by simp), E, x, S, rfl, fun e he => h1 e (by simp [he]), h2⟩
    · rintro ⟨h, E, x, S, rfl, h1, h2⟩
      exact ⟨d :: E, x, S, rfl, by simp, by simpa [h] using h1, h2⟩
  cases L with
  | nil => simp [good, goodFrom]
  | cons d R =>
    rw [key d R rfl]
    have hd := hok d (by simp)
    have hcnt := hd.cnt
    -- the last condition of `okRun`
    have tail : ∀ (d : Dim) (R : List Dim), DimOk d → (∀ x ∈ R, DimOk x) → WholeInner (d :: R) →
        ((!d.full || tot R == 1 || okFrom d.exact false R) = true ↔ ¬ (d.exact = true ∧ Astr R)) := by
      intro d R hd hR hw
      cases R with
      | nil =>
        have ht1 : (tot [] == 1) = true := rfl
        simp [ht1, astr_nil]
      | cons e R =>
        have hf := hw.head.full hd
        have hokR := okFrom_uncut hR hw.tail
        generalize e :: R = R at *
        rw [hf]
        by_cases hex : d.exact = true
        · rw [hex]
          simp only [Bool.not_true, Bool.false_or, Bool.or_eq_true, beq_iff_eq, true_and, ← hokR]
          exact ⟨fun h => h.elim (okFrom_one _ _) id, .inr⟩
        · simp [hex]
    by_cases hu : d.unit = true
    · have hu' : d.cs = 1 ∧ d.cnt = 1 := by simpa [Dim.unit] using hu
      have hex : d.exact = true := by simp [Dim.exact, hu'.1, hu'.2, Nat.mod_one]
      rw [good, goodFrom, if_pos hu]
      cases R with
      | nil => simp [goodFrom, astr_nil]
      | cons d' R =>
        have hd' := hok d' (by simp)
        have hcnt' := hd'.cnt
        have hne : d'.cs ≠ 1 := fun h => h11 d d' R rfl ⟨hu, h⟩
        have hcs' := hd'.cs
        have hnu : ¬ d'.unit = true := by simp [Dim.unit, hne]
        have hnx : ¬ (d'.exact && decide (d'.cnt ≤ 0 + 1)) = true := by
          simp only [Bool.and_eq_true, decide_eq_true_eq, not_and, Dim.exact, beq_iff_eq]
          omega
        rw [goodFrom, if_neg hnu, okRun, if_neg hnu, if_neg hnx, Bool.and_eq_true,
          tail d' R hd' (fun x hx => hok x (by simp [hx])) hL.tail, List.all_eq_true, astr_cons]
        simp only [hex, true_and, not_or]
        refine and_congr ?_ Iff.rfl
        constructor
        · rintro h (⟨-, g1, g2⟩ | ⟨g, -⟩)
          · have h := h (d'.cnt - 1) (by rw [List.mem_range]; omega)
            rw [g1] at h
            have e1 : ¬ d'.cnt - 1 + (0 + 1) < d'.cnt := by omega
            have e2 : ¬ tot R = 1 := tot_ne_one.2 g2
            simp [e2] at h
            omega
          · exact hne g
        · intro h o ho
          rw [List.mem_range] at ho
          by_cases hs : d'.segStart o = true
          · obtain ⟨-, -, -, -, -, f6, -⟩ := dim_facts hd' ho
            by_cases hl : o + 1 = d'.cnt
            · have : tot R = 1 := by
                by_contra hR
                refine h (.inl ⟨by omega, ?_, tot_ne_one.1 hR⟩)
                rw [← hl]; exact hs
              have : d'.cnt ≤ d'.cce o := by omega
              simp [*]
            · have e1 : o + 1 < d'.cnt := by omega
              have e2 : o + 1 ≤ d'.cce o := f6
              simp [e1, e2]
          · simp [hs]
    · rw [good, goodFrom, if_neg hu, okRun, if_neg hu, if_neg (by simp; omega), Bool.and_eq_true,
        tail d R hd (fun x hx => hok x (by simp [hx])) hL, List.all_eq_true]
      constructor
      · exact And.right
      · intro h
        refine ⟨fun o ho => ?_, h⟩
        rw [List.mem_range] at ho
        obtain ⟨-, -, -, -, -, f6, -⟩ := dim_facts hd ho
        have e2 : o ≤ d.cce o := by omega
        simp [ho, e2]

/-- `BadHere`, for the dimensions `E` inside. -/
def BadIn (E : List Dim) (x : Dim) (S : List Dim) : Prop :=
  (1 < x.cs ∧ x.segStart (x.cnt - 1) = true ∧ ∃ y ∈ S, y.cnt ≠ 1) ∨
  (x.cs = 1 ∧ 1 < x.cnt ∧ if E.map Dim.cs = [1] then ∃ y ∈ S, y.cnt ≠ 1 else ∃ y ∈ S, y.allunit = false)

theorem good_uncut {p : Profile} {L : List Dim} (hok : ∀ d ∈ L, DimOk d) (hL : WholeInner L)
    (h11 : ∀ d d' R, L = d :: d' :: R → ¬ (d.unit = true ∧ d'.unit = true)) :
    good p L = true ↔ ¬ ∃ E x S, L = E ++ x :: S ∧ E ≠ [] ∧ (∀ e ∈ E, e.exact = true) ∧ BadIn E x S := by
  by_cases hc : ∃ d d' R, L = d :: d' :: R ∧ d.unit = true ∧ d'.cs = 1
  · obtain ⟨d, d', R, rfl, hu, h1⟩ := hc
    have hd' := hok d' (by simp)
    have hcnt' := hd'.cnt
    have hu' : d.cs = 1 ∧ d.cnt = 1 := by simpa [Dim.unit] using hu
    have hex : d.exact = true := by simp [Dim.exact, hu'.1, hu'.2, Nat.mod_one]
    have hnu : ¬ d'.unit = true := fun h => h11 d d' R rfl ⟨hu, h⟩
    have hne : d'.cnt ≠ 1 := fun h => hnu (by simp [Dim.unit, h1, h])
    have hnx : d'.exact = false := by simp [Dim.exact, h1, hne]
    have hnf : d'.full = false := by
      simp only [Dim.full, h1, Bool.and_eq_false_iff, beq_eq_false_iff_ne]
      right
      omega
    have hcce : ∀ o, o < d'.cnt → d'.cce o = o + 1 := by
      intro o ho
      have := hd'.fit
      unfold Dim.cce Dim.coff
      rw [h1, Nat.div_one, Nat.mul_one]
      omega
    have hseg : ∀ o, d'.segStart o = true := fun o => by simp [Dim.segStart, h1, Nat.mod_one]
    have hg : good p (d :: d' :: R) = true ↔ tot R = 1 := by
      rw [good, goodFrom, if_pos hu, goodFrom, if_neg hnu, okRun, if_neg hnu, if_neg (by simp [hnx]), hnf,
        Bool.and_eq_true, List.all_eq_true]
      simp only [Bool.not_false, Bool.true_or, and_true, List.mem_range]
      constructor
      · intro h
        have h := h (d'.cnt - 1) (by omega)
        rw [hseg] at h
        have e1 : ¬ d'.cnt - 1 + (0 + 1) < d'.cnt := by omega
        simp only [Bool.not_true, Bool.false_or, e1, decide_false, Bool.false_and, Bool.and_eq_true, beq_iff_eq] at h
        exact h.1
      · intro h o ho
        rw [hcce o ho, h]
        rcases Nat.lt_or_ge (o + 1) d'.cnt with hl | hl
        · simp [hl]
        · simp only [beq_self_eq_true, hl, decide_true, Bool.and_true, Bool.or_true]
    rw [hg]
    constructor
    · rintro h ⟨E, x, S, he, h0, h2, h3⟩
      cases E with
      | nil => exact h0 rfl
      | cons e E =>
        cases E with
        | nil =>
          simp only [List.cons_append, List.nil_append, List.cons.injEq] at he
          obtain ⟨he1, he2, he3⟩ := he
          subst he1 he2 he3
          rcases h3 with ⟨h3, -⟩ | ⟨-, -, h3⟩
          · omega
          · rw [if_pos (by simp [hu'.1])] at h3
            exact tot_ne_one.2 h3 h
        | cons e' E =>
          simp only [List.cons_append, List.cons.injEq] at he
          rw [he.2.1, h2 e' (by simp)] at hnx
          simp at hnx
    · intro h
      by_contra ht
      refine h ⟨[d], d', R, rfl, by simp, by simpa using hex, .inr ⟨h1, by omega, ?_⟩⟩
      rw [if_pos (by simp [hu'.1])]
      exact tot_ne_one.1 ht
  · push Not at hc
    rw [good_uncut_thick hok hL fun d d' R h g => hc d d' R h g.1 g.2, not_iff_not]
    refine exists_congr fun E => exists_congr fun x => exists_congr fun S => and_congr_right fun h =>
      and_congr_right fun h0 => and_congr_right fun h1 => ?_
    unfold BadIn BadHere
    refine or_congr Iff.rfl (and_congr_right fun hx => and_congr_right fun _ => ?_)
    rw [if_neg]
    intro he
    cases E with
    | nil => exact h0 rfl
    | cons e E =>
      simp only [List.map_cons, List.cons.injEq, List.map_eq_nil_iff] at he
      obtain ⟨he, rfl⟩ := he
      have := h1 e (by simp)
      refine hc e x S h ?_ hx
      simpa [Dim.unit, Dim.exact, he, Nat.mod_one] using this

/-! ## From start, count, chunk shape and shape -/

theorem axes_eq (is ns cs ss : List Nat) : axes is ns cs ss = (dimsOf is ns cs ss).reverse := by
  induction is generalizing ns cs ss with
  | nil => simp [axes, dimsOf]
  | cons i is ih =>
    cases ns with
    | nil => simp [axes, dimsOf]
    | cons n ns =>
      cases cs with
      | nil => simp [axes, dimsOf]
      | cons c cs =>
        cases ss with
        | nil => simp [axes, dimsOf]
        | cons s ss => simp [axes, dimsOf, ih]

theorem wholeInner_of {L : List Dim} (h : ∀ d ∈ L.dropLast, Whole d) : WholeInner L := by
  induction L with
  | nil => trivial
  | cons d R ih =>
    cases R with
    | nil => trivial
    | cons e R =>
      rw [List.dropLast_cons₂] at h
      exact ⟨h d (by simp), ih fun x hx => h x (by simp [hx])⟩

theorem whole_of {d : Dim} (h : (d.idx + d.cnt - 1) / d.cs * d.cs + d.cs ≤ d.shp) : Whole d := by
  intro o ho
  have h1 : d.coff o ≤ (d.idx + d.cnt - 1) / d.cs * d.cs := by
    unfold Dim.coff
    exact Nat.mul_le_mul_right _ (Nat.div_le_div_right (by omega))
  unfold Dim.csz
  omega

theorem uncut_whole {is ns cs ss : List Nat} (h : Uncut ss cs is ns) : WholeInner (dimsOf is ns cs ss) := by
  refine wholeInner_of fun d hd => whole_of (h d ?_)
  rw [axes_eq, List.tail_reverse, List.mem_reverse]
  exact hd

theorem uncut_between {is ns cs ss : List Nat} (h : Uncut ss cs is ns) : UncutBetween ss cs is ns :=
  fun d hd => h d ((List.dropLast_sublist _).subset hd)

theorem between_whole {is ns cs ss : List Nat} (h : UncutBetween ss cs is ns) :
    WholeInner (dimsOf is ns cs ss).tail := by
  refine wholeInner_of fun d hd => whole_of (h d ?_)
  rw [axes_eq, List.tail_reverse, List.dropLast_reverse, List.mem_reverse, List.tail_dropLast]
  exact hd

theorem axes_length (is ns cs ss : List Nat) : (axes is ns cs ss).length ≤ ss.length := by
  induction is generalizing ns cs ss with
  | nil => simp [axes]
  | cons i is ih =>
    match ns, cs, ss with
    | [], _, _ => simp [axes]
    | _ :: _, [], _ => simp [axes]
    | _ :: _, _ :: _, [] => simp [axes]
    | n :: ns, c :: cs, s :: ss => simpa [axes] using ih ns cs ss

/-- There is nothing between the first and the last of two dimensions. -/
theorem between_of_rank {is ns cs ss : List Nat} (h : ss.length ≤ 2) : UncutBetween ss cs is ns := by
  have hl := axes_length is ns cs ss
  unfold UncutBetween
  generalize axes is ns cs ss = A at hl
  match A with
  | [] => simp
  | [_] => simp
  | [_, _] => simp
  | _ :: _ :: _ :: _ => simp at hl; omega

theorem allunit_iff {d : Dim} (hd : DimOk d) : d.allunit = false ↔ 1 < min d.cs (d.shp - d.idx / d.cs * d.cs) := by
  have hcnt := hd.cnt
  have hfit := hd.fit
  have hcs := hd.cs
  have e : min d.cs (d.shp - d.idx / d.cs * d.cs) = d.csz 0 := by
    unfold Dim.csz Dim.coff
    rw [Nat.add_zero]
    omega
  have h0 : d.coff 0 = d.idx / d.cs * d.cs := rfl
  obtain ⟨f1, f2, -, f4, -, -, -⟩ := dim_facts hd hcnt
  rw [e]
  rw [← not_iff_not, Bool.not_eq_false, Nat.not_lt]
  unfold Dim.allunit
  rw [List.all_eq_true]
  simp only [List.mem_range, beq_iff_eq]
  constructor
  · intro h
    exact Nat.le_of_eq (h 0 hcnt)
  · intro h o ho
    obtain ⟨g1, g2, -, g4, -, -, -⟩ := dim_facts hd ho
    rcases Nat.lt_or_ge 1 d.cs with hc | hc
    · have : o = 0 := by omega
      subst this
      omega
    · omega

theorem badHere_iff {x : Dim} {S : List Dim} (hx : DimOk x) (hS : ∀ d ∈ S, DimOk d) : BadHere x S ↔
    ((1 < x.cs ∧ (x.cnt = 1 ∨ (x.idx + x.cnt - 1) % x.cs = 0) ∧ ∃ y ∈ S, y.cnt ≠ 1) ∨
     (x.cs = 1 ∧ 1 < x.cnt ∧ ∃ y ∈ S, 1 < min y.cs (y.shp - y.idx / y.cs * y.cs))) := by
  have hcnt := hx.cnt
  have h1 : x.segStart (x.cnt - 1) = true ↔ (x.cnt = 1 ∨ (x.idx + x.cnt - 1) % x.cs = 0) := by
    simp only [Dim.segStart, Bool.or_eq_true, beq_iff_eq]
    rw [show x.idx + (x.cnt - 1) = x.idx + x.cnt - 1 by omega]
    omega
  have h2 : (∃ y ∈ S, y.allunit = false) ↔ ∃ y ∈ S, 1 < min y.cs (y.shp - y.idx / y.cs * y.cs) :=
    exists_congr fun y => and_congr_right fun hy => allunit_iff (hS y hy)
  unfold BadHere
  rw [h1, h2]

theorem badIn_iff {E : List Dim} {x : Dim} {S : List Dim} (hx : DimOk x) (hS : ∀ d ∈ S, DimOk d) : BadIn E x S ↔
    ((1 < x.cs ∧ (x.cnt = 1 ∨ (x.idx + x.cnt - 1) % x.cs = 0) ∧ ∃ y ∈ S, y.cnt ≠ 1) ∨
     (x.cs = 1 ∧ 1 < x.cnt ∧ if E.map Dim.cs = [1] then ∃ y ∈ S, y.cnt ≠ 1
       else ∃ y ∈ S, 1 < min y.cs (y.shp - y.idx / y.cs * y.cs))) := by
  have hcnt := hx.cnt
  have h1 : x.segStart (x.cnt - 1) = true ↔ (x.cnt = 1 ∨ (x.idx + x.cnt - 1) % x.cs = 0) := by
    simp only [Dim.segStart, Bool.or_eq_true, beq_iff_eq]
    rw [show x.idx + (x.cnt - 1) = x.idx + x.cnt - 1 by omega]
    omega
  have h2 : (∃ y ∈ S, y.allunit = false) ↔ ∃ y ∈ S, 1 < min y.cs (y.shp - y.idx / y.cs * y.cs) :=
    exists_congr fun y => and_congr_right fun hy => allunit_iff (hS y hy)
  unfold BadIn
  rw [h1, h2]

theorem reverse_single {E : List Dim} : E.reverse.map Dim.cs = [1] ↔ E.map Dim.cs = [1] := by
  rw [List.map_reverse, List.reverse_eq_iff]
  rfl

/-- A selection that meets no cut chunk is `Good` if and only if it is not `Astray`. -/
theorem good_uncut_iff {p : Profile} {ds : Dataset} {start count : List Nat} (hwf : WF p ds)
    (hb : InBounds start count ds.shape) (hu : Uncut ds.shape ds.chunkShape start count)
    (h11 : ¬ ThinPair ds.shape ds.chunkShape start count) :
    Good p ds start count ↔ ¬ Astray ds.shape ds.chunkShape start count := by
  unfold Good Astray
  unfold ThinPair at h11
  have hw := uncut_whole hu
  obtain ⟨hS, -, -⟩ := sel_of hwf hb
  have hd := hS.dims
  rw [axes_eq] at h11 ⊢
  generalize dimsOf start count ds.chunkShape ds.shape = L at *
  rw [good_uncut hd hw, not_iff_not]
  · constructor
    · rintro ⟨E, x, S, rfl, h0, h1, h2⟩
      refine ⟨S.reverse, x, E.reverse, by simp, by simpa using h0, fun y hy => ?_, ?_⟩
      · simpa [Dim.exact] using h1 y (by simpa using hy)
      · simp only [List.mem_reverse, reverse_single]
        exact (badIn_iff (hd x (by simp)) fun d h => hd d (by simp [h])).1 h2
    · rintro ⟨o, x, i, h, h0, h1, h2⟩
      rw [List.reverse_eq_iff] at h
      simp only [List.reverse_append, List.reverse_cons, List.append_assoc, List.singleton_append] at h
      subst h
      refine ⟨i.reverse, x, o.reverse, rfl, by simpa using h0, fun y hy => ?_, ?_⟩
      · simpa [Dim.exact] using h1 y (by simpa using hy)
      · refine (badIn_iff (hd x (by simp)) fun d h => hd d (by simp at h ⊢; simp [h])).2 ?_
        simpa only [List.mem_reverse, reverse_single] using h2
  · rintro d d' R rfl ⟨g1, g2⟩
    refine h11 ⟨R.reverse, d', d, by simp, ?_, ?_⟩
    · simpa [Dim.unit] using g2
    · simpa [Dim.unit] using g1

/-! ## One index in each of the two last dimensions -/

theorem okTail_uncut {d : Dim} {R : List Dim} (hd : DimOk d) (hR : ∀ x ∈ R, DimOk x) (hw : WholeInner (d :: R)) :
    (!d.full || tot R == 1 || okFrom d.exact false R) = true ↔ ¬ (d.exact = true ∧ Astr R) := by
  cases R with
  | nil =>
    have ht1 : (tot [] == 1) = true := rfl
    simp [ht1, astr_nil]
  | cons e R =>
    have hf := hw.head.full hd
    have hokR := okFrom_uncut hR hw.tail
    generalize e :: R = R at *
    rw [hf]
    by_cases hex : d.exact = true
    · rw [hex]
      simp only [Bool.not_true, Bool.false_or, Bool.or_eq_true, beq_iff_eq, true_and, ← hokR]
      exact ⟨fun h => h.elim (okFrom_one _ _) id, .inr⟩
    · simp [hex]

theorem exact_iff {d : Dim} : d.exact = true ↔ d.idx % d.cs = 0 ∧ d.cnt = d.cs := by simp [Dim.exact]

theorem astr_iff {L : List Dim} (hL : ∀ d ∈ L, DimOk d) : Astr L ↔
    ∃ E y S, L = E ++ y :: S ∧ (∀ e ∈ E, e.idx % e.cs = 0 ∧ e.cnt = e.cs) ∧ Slips y S := by
  unfold Astr Slips
  refine exists_congr fun E => exists_congr fun x => exists_congr fun S => and_congr_right fun h => ?_
  subst h
  rw [badHere_iff (hL x (by simp)) fun d h => hL d (by simp [h])]
  refine and_congr ?_ Iff.rfl
  exact forall_congr' fun e => imp_congr_right fun _ => exact_iff

theorem tooMany_iff {p : Profile} {c o : Nat} {d : Dim} {R : List Dim} (hd : DimOk d) (ho : o < d.cnt) :
    (!d.segStart o || (decide (o + c < d.cnt) && (p == .release || decide (o + c ≤ d.cce o))) ||
      (tot R == 1 && decide (d.cnt ≤ d.cce o))) = true ↔ ¬ TooMany p c d R o := by
  unfold TooMany
  obtain ⟨f1, f2, -, f4, f5, f6, -⟩ := dim_facts hd ho
  have hfit := hd.fit
  have hcoff : (d.idx + o) / d.cs * d.cs = d.coff o := rfl
  rw [hcoff, ← tot_ne_one]
  have hs : d.segStart o = true ↔ (o = 0 ∨ (d.idx + o) % d.cs = 0) := by simp [Dim.segStart]
  rw [← hs]
  cases hseg : d.segStart o with
  | false => simp
  | true =>
    simp only [Bool.not_true, Bool.false_or, Bool.or_eq_true, Bool.and_eq_true, decide_eq_true_eq, beq_iff_eq, true_and]
    cases p with
    | debug =>
      simp only [true_and, reduceCtorEq, false_or]
      omega
    | release =>
      simp only [true_or, and_true, reduceCtorEq, false_and, or_false]
      omega

theorem okRun_uncut {p : Profile} {L : List Dim} (hok : ∀ d ∈ L, DimOk d) (hL : WholeInner L) : ∀ {c : Nat},
    okRun p c L = true ↔ ¬ Derailed p c L := by
  induction L with
  | nil => simp [okRun, Derailed]
  | cons d R ih =>
    intro c
    have hd := hok d (by simp)
    have hR : ∀ x ∈ R, DimOk x := fun x hx => hok x (by simp [hx])
    have ih : ∀ {c : Nat}, okRun p c R = true ↔ ¬ Derailed p c R := ih hR hL.tail
    have hcnt := hd.cnt
    rw [okRun, Derailed]
    by_cases hu : d.cs = 1 ∧ d.cnt = 1
    · rw [if_pos (by simpa [Dim.unit] using hu), if_pos hu, ih]
    · rw [if_neg (by simpa [Dim.unit] using hu), if_neg hu]
      by_cases hex : d.exact = true
      · rw [if_pos (exact_iff.1 hex), hex, Bool.true_and]
        by_cases hc : d.cnt ≤ c
        · rw [if_pos (by simpa using hc), if_pos hc, ih]
        · rw [if_neg (by simpa using hc), if_neg hc, ← astr_iff hR]
          have ht := okTail_uncut hd hR hL
          rw [hex] at ht
          rw [Bool.and_eq_true, ht]
          simp only [true_and]
          refine ⟨And.right, fun h => ⟨?_, h⟩⟩
          rw [List.all_eq_true]
          intro o ho
          rw [List.mem_range] at ho
          by_cases hs : d.segStart o = true
          · have he := exact_iff.1 hex
            have h0 : o = 0 := by
              rcases (by simpa [Dim.segStart] using hs : o = 0 ∨ (d.idx + o) % d.cs = 0) with h | h
              · exact h
              · rw [Nat.add_mod, he.1, Nat.zero_add, Nat.mod_mod, Nat.mod_eq_of_lt (by omega)] at h
                exact h
            subst h0
            obtain ⟨f1, f2, -, f4, f5, f6, -⟩ := dim_facts hd ho
            have hfit := hd.fit
            have hc0 : d.coff 0 = d.idx := by
              unfold Dim.coff
              have := Nat.div_add_mod d.idx d.cs
              rw [Nat.mul_comm] at this
              simp only [Nat.add_zero]
              omega
            have a1 : c < d.cnt := by omega
            have a2 : c ≤ d.cce 0 := by omega
            simp [a1, a2]
          · simp [hs]
      · have hex' := fun h => hex (exact_iff.2 h)
        have hexf : d.exact = false := by simpa using hex
        rw [if_neg hex', if_neg (by simp [hexf]), Bool.and_eq_true, okTail_uncut hd hR hL, List.all_eq_true]
        simp only [hexf, Bool.false_eq_true, false_and, not_false_eq_true, and_true, List.mem_range]
        push Not
        exact forall_congr' fun o => imp_congr_right fun ho => tooMany_iff hd ho

theorem goodFrom_uncut {p : Profile} {L : List Dim} (hok : ∀ d ∈ L, DimOk d) (hL : WholeInner L) : ∀ {k : Nat},
    goodFrom p k L = true ↔ ¬ Derailed p (k + (L.takeWhile fun d => d.cs == 1 && d.cnt == 1).length) L := by
  induction L with
  | nil => simp [goodFrom, Derailed]
  | cons d R ih =>
    intro k
    rw [goodFrom]
    by_cases hu : d.unit = true
    · rw [if_pos hu, ih (fun x hx => hok x (by simp [hx])) hL.tail, List.takeWhile_cons_of_pos (p := fun d : Dim => d.cs == 1 && d.cnt == 1) hu, List.length_cons, Derailed,
        if_pos (by simpa [Dim.unit] using hu), show k + 1 + (R.takeWhile fun d => d.cs == 1 && d.cnt == 1).length =
          k + ((R.takeWhile fun d => d.cs == 1 && d.cnt == 1).length + 1) by omega]
    · rw [if_neg hu, List.takeWhile_cons_of_neg (p := fun d : Dim => d.cs == 1 && d.cnt == 1) hu, okRun_uncut hok hL]
      rfl

/-- A selection that meets no cut chunk is `Good` if and only if it is not `Lost`. -/
theorem good_lost_iff {p : Profile} {ds : Dataset} {start count : List Nat} (hwf : WF p ds)
    (hb : InBounds start count ds.shape) (hu : Uncut ds.shape ds.chunkShape start count) :
    Good p ds start count ↔ ¬ Lost p ds.shape ds.chunkShape start count := by
  by_cases h : ThinPair ds.shape ds.chunkShape start count
  · unfold Lost
    rw [if_pos h, axes_eq, List.reverse_reverse]
    unfold Good good
    rw [goodFrom_uncut (sel_of hwf hb).1.dims (uncut_whole hu), Nat.zero_add]
  · unfold Lost
    rw [if_neg h, good_uncut_iff hwf hb hu h]

/-- What is not lost in a debug build is good in every build. -/
theorem good_of_not_lost {p : Profile} {ds : Dataset} {start count : List Nat} (hwf : WF p ds)
    (hb : InBounds start count ds.shape) (hu : Uncut ds.shape ds.chunkShape start count)
    (h : ¬ Lost .debug ds.shape ds.chunkShape start count) : Good p ds start count := by
  by_cases ht : ThinPair ds.shape ds.chunkShape start count
  · unfold Lost at h
    rw [if_pos ht, axes_eq, List.reverse_reverse] at h
    have hg : goodFrom .debug 0 (dimsOf start count ds.chunkShape ds.shape) = true := by
      rw [goodFrom_uncut (sel_of hwf hb).1.dims (uncut_whole hu), Nat.zero_add]
      exact h
    exact goodFrom_release _ _ hg
  · unfold Lost at h
    rw [if_neg ht] at h
    exact (good_uncut_iff hwf hb hu ht).2 h

end Hidefix.Proofs
