import Verif.Spec.Float
import Verif.Model.Xarray
import Mathlib.Tactic.Linarith
import Mathlib.Tactic.Ring
import Mathlib.Tactic.LinearCombination
import Mathlib.Tactic.Positivity

/-!
# Integers and floats of the xarray backend have the values of the specification
-/

set_option autoImplicit false

namespace Hidefix.Proofs
open Hidefix Hidefix.Spec

theorem uval_lt (l : List Byte) : uval l < 256 ^ l.length := by
  induction l with
  | nil => simp [uval]
  | cons b l ih =>
    simp only [uval, List.length_cons, Nat.pow_succ]
    have := UInt8.toNat_lt b
    have : b.toNat * 256 ^ l.length ≤ 255 * 256 ^ l.length := Nat.mul_le_mul_right _ (by omega)
    omega

theorem uval_inj {a b : List Byte} (hl : a.length = b.length) (h : uval a = uval b) : a = b := by
  induction a generalizing b with
  | nil => exact (List.eq_nil_of_length_eq_zero hl.symm).symm
  | cons x a ih =>
    cases b with
    | nil => simp at hl
    | cons y b =>
      simp only [List.length_cons, Nat.add_right_cancel_iff] at hl
      simp only [uval, hl] at h
      have h1 := uval_lt a
      have h2 := uval_lt b
      rw [hl] at h1
      have hxy : x.toNat = y.toNat := by
        have e1 : (x.toNat * 256 ^ b.length + uval a) / 256 ^ b.length = x.toNat := by
          rw [Nat.mul_comm, Nat.mul_add_div (Nat.pow_pos (by decide)), Nat.div_eq_of_lt h1, Nat.add_zero]
        have e2 : (y.toNat * 256 ^ b.length + uval b) / 256 ^ b.length = y.toNat := by
          rw [Nat.mul_comm, Nat.mul_add_div (Nat.pow_pos (by decide)), Nat.div_eq_of_lt h2, Nat.add_zero]
        rw [← e1, ← e2, h]
      rw [hxy] at h
      rw [UInt8.toNat_inj.1 hxy, ih hl (by omega)]

theorem beNat_eq (l : List Byte) : beNat l = uval l := by
  have : ∀ (l : List Byte) (a : Nat), l.foldl (fun a b => a * 256 + b.toNat) a =
      a * 256 ^ l.length + uval l := by
    intro l
    induction l with
    | nil => simp [uval]
    | cons b l ih =>
      intro a
      rw [List.foldl_cons, ih, uval, List.length_cons, Nat.pow_succ]
      ring
  rw [beNat, this]; simp

theorem scaled_inj {M m m' a b : Nat} (hm : m < 2 ^ M) (hm' : m' < 2 ^ M)
    (h : (2 ^ M + m) * 2 ^ a = (2 ^ M + m') * 2 ^ b) : a = b ∧ m = m' := by
  have key : ∀ {m m' a b : Nat}, m < 2 ^ M → (2 ^ M + m) * 2 ^ a = (2 ^ M + m') * 2 ^ b → ¬ a < b := by
    intro m m' a b hm h hab
    have h1 : (2 ^ M + m) * 2 ^ a < 2 ^ (M + 1) * 2 ^ a :=
      Nat.mul_lt_mul_of_pos_right (by rw [Nat.pow_succ]; omega) (Nat.pow_pos (by decide))
    have h2 : 2 ^ (M + 1) * 2 ^ a ≤ 2 ^ M * 2 ^ b := by
      rw [← Nat.pow_add, ← Nat.pow_add]
      exact Nat.pow_le_pow_right (by decide) (by omega)
    have h3 : 2 ^ M * 2 ^ b ≤ (2 ^ M + m') * 2 ^ b := Nat.mul_le_mul_right _ (by omega)
    omega
  have hab : a = b := by
    have := key hm h
    have := key hm' h.symm
    omega
  subst hab
  have := Nat.eq_of_mul_eq_mul_right (Nat.pow_pos (by decide)) h
  exact ⟨rfl, by omega⟩

/-- The magnitude of a finite number. -/
def mag (M e m : Nat) : Nat := if e = 0 then m else (2 ^ M + m) * 2 ^ (e - 1)

theorem mag_inj {M e m e' m' : Nat} (hm : m < 2 ^ M) (hm' : m' < 2 ^ M)
    (h : mag M e m = mag M e' m') : e = e' ∧ m = m' := by
  have big : ∀ {e m : Nat}, e ≠ 0 → 2 ^ M ≤ (2 ^ M + m) * 2 ^ (e - 1) := fun {e m} _ =>
    le_trans (by omega : 2 ^ M ≤ 2 ^ M + m) (Nat.le_mul_of_pos_right _ (Nat.pow_pos (by decide)))
  unfold mag at h
  by_cases h0 : e = 0
  · by_cases h0' : e' = 0
    · rw [if_pos h0, if_pos h0'] at h; omega
    · rw [if_pos h0, if_neg h0'] at h
      have := big (m := m') h0'
      omega
  · by_cases h0' : e' = 0
    · rw [if_neg h0, if_pos h0'] at h
      have := big (m := m) h0
      omega
    · rw [if_neg h0, if_neg h0'] at h
      obtain ⟨h1, h2⟩ := scaled_inj hm hm' h
      exact ⟨by omega, h2⟩

theorem mag_zero {M e m : Nat} : mag M e m = 0 ↔ e = 0 ∧ m = 0 := by
  unfold mag
  by_cases h0 : e = 0
  · simp [h0]
  · have h1 := Nat.pow_pos (n := M) (show 0 < 2 by decide)
    have h2 := Nat.pow_pos (n := e - 1) (show 0 < 2 by decide)
    have := Nat.mul_pos (show 0 < 2 ^ M + m by omega) h2
    rw [if_neg h0]
    omega

theorem floatOfBits_eq (E M n : Nat) : floatOfBits E M n =
    if n / 2 ^ M % 2 ^ E = 2 ^ E - 1 then
      (if n % 2 ^ M = 0 then .inf (n / 2 ^ (E + M) % 2 = 1) else .nan)
    else .fin (if n / 2 ^ (E + M) % 2 = 1 then -(mag M (n / 2 ^ M % 2 ^ E) (n % 2 ^ M) : Int)
      else mag M (n / 2 ^ M % 2 ^ E) (n % 2 ^ M)) := by
  unfold floatOfBits mag
  simp only
  split
  · rfl
  · congr 1
    split <;> split <;> simp

theorem bits_split (E M n : Nat) : n % 2 ^ (E + M) = (n / 2 ^ M % 2 ^ E) * 2 ^ M + n % 2 ^ M := by
  rw [Nat.add_comm E M, Nat.pow_add, Nat.mod_mul, Nat.mul_comm]; omega

theorem nan_iff {E M n : Nat} (hE : 0 < E) : floatOfBits E M n = .nan ↔
    (2 ^ E - 1) * 2 ^ M < n % 2 ^ (E + M) := by
  rw [floatOfBits_eq, bits_split]
  have h1 : n / 2 ^ M % 2 ^ E < 2 ^ E := Nat.mod_lt _ (Nat.pow_pos (by decide))
  have h2 : n % 2 ^ M < 2 ^ M := Nat.mod_lt _ (Nat.pow_pos (by decide))
  generalize n / 2 ^ M % 2 ^ E = e at *
  generalize n % 2 ^ M = m at *
  by_cases he : e = 2 ^ E - 1
  · rw [if_pos he, ← he]
    by_cases hm : m = 0 <;> simp [hm]; omega
  · rw [if_neg he]
    have : (e + 1) * 2 ^ M ≤ (2 ^ E - 1) * 2 ^ M := Nat.mul_le_mul_right _ (by omega)
    rw [Nat.add_mul] at this
    simp; omega

theorem floatOfBits_inj {E M n n' : Nat} (hE : 0 < E) (hn : n < 2 ^ (E + M + 1)) (hn' : n' < 2 ^ (E + M + 1))
    (hx : floatOfBits E M n ≠ .nan) :
    floatOfBits E M n = floatOfBits E M n' ↔
      n = n' ∨ n % 2 ^ (E + M) = 0 ∧ n' % 2 ^ (E + M) = 0 := by
  have hs := bits_split E M n
  have hs' := bits_split E M n'
  have d1 := Nat.div_add_mod n (2 ^ (E + M))
  have d2 := Nat.div_add_mod n' (2 ^ (E + M))
  have q1 : n / 2 ^ (E + M) < 2 := by
    rw [Nat.div_lt_iff_lt_mul (Nat.pow_pos (by decide)), Nat.mul_comm, ← Nat.pow_succ]; exact hn
  have q2 : n' / 2 ^ (E + M) < 2 := by
    rw [Nat.div_lt_iff_lt_mul (Nat.pow_pos (by decide)), Nat.mul_comm, ← Nat.pow_succ]; exact hn'
  have h1 : n / 2 ^ M % 2 ^ E < 2 ^ E := Nat.mod_lt _ (Nat.pow_pos (by decide))
  have h2 : n % 2 ^ M < 2 ^ M := Nat.mod_lt _ (Nat.pow_pos (by decide))
  have h1' : n' / 2 ^ M % 2 ^ E < 2 ^ E := Nat.mod_lt _ (Nat.pow_pos (by decide))
  have h2' : n' % 2 ^ M < 2 ^ M := Nat.mod_lt _ (Nat.pow_pos (by decide))
  have hpos : 0 < 2 ^ M := Nat.pow_pos (by decide)
  rw [floatOfBits_eq] at hx
  rw [floatOfBits_eq, floatOfBits_eq]
  rw [Nat.mod_eq_of_lt q1] at hx ⊢
  rw [Nat.mod_eq_of_lt q2]
  have hzero : n % 2 ^ (E + M) = 0 ↔ n / 2 ^ M % 2 ^ E = 0 ∧ n % 2 ^ M = 0 := by
    rw [hs, Nat.add_eq_zero_iff, Nat.mul_eq_zero]; omega
  have hzero' : n' % 2 ^ (E + M) = 0 ↔ n' / 2 ^ M % 2 ^ E = 0 ∧ n' % 2 ^ M = 0 := by
    rw [hs', Nat.add_eq_zero_iff, Nat.mul_eq_zero]; omega
  have hsame : n / 2 ^ (E + M) = n' / 2 ^ (E + M) → n / 2 ^ M % 2 ^ E = n' / 2 ^ M % 2 ^ E →
      n % 2 ^ M = n' % 2 ^ M → n = n' := by
    intro a b c
    rw [← d1, ← d2, hs, hs', a, b, c]
  have q1' : n / 2 ^ (E + M) = 0 ∨ n / 2 ^ (E + M) = 1 := by
    generalize n / 2 ^ (E + M) = q at q1; omega
  have q2' : n' / 2 ^ (E + M) = 0 ∨ n' / 2 ^ (E + M) = 1 := by
    generalize n' / 2 ^ (E + M) = q at q2; omega
  rw [hzero, hzero']
  constructor
  · intro h
    by_cases he : n / 2 ^ M % 2 ^ E = 2 ^ E - 1
    · rw [if_pos he] at h hx
      by_cases hm : n % 2 ^ M = 0
      · rw [if_pos hm] at h
        by_cases he' : n' / 2 ^ M % 2 ^ E = 2 ^ E - 1
        · rw [if_pos he'] at h
          by_cases hm' : n' % 2 ^ M = 0
          · rw [if_pos hm'] at h
            left
            have : (n / 2 ^ (E + M) = 1) = (n' / 2 ^ (E + M) = 1) := by simpa using h
            have := Iff.of_eq this
            refine hsame ?_ (by omega) (by omega)
            rcases q1' with a | a <;> rcases q2' with b | b <;> simp_all
          · simp [hm'] at h
        · simp [he'] at h
      · simp [hm] at hx
    · rw [if_neg he] at h
      by_cases he' : n' / 2 ^ M % 2 ^ E = 2 ^ E - 1
      · rw [if_pos he'] at h
        by_cases hm' : n' % 2 ^ M = 0 <;> simp [hm'] at h
      · rw [if_neg he'] at h
        have h := FloatVal.fin.inj h
        have habs : mag M (n / 2 ^ M % 2 ^ E) (n % 2 ^ M) = mag M (n' / 2 ^ M % 2 ^ E) (n' % 2 ^ M) := by
          split at h <;> split at h <;> omega
        obtain ⟨a, b⟩ := mag_inj h2 h2' habs
        by_cases hz : mag M (n / 2 ^ M % 2 ^ E) (n % 2 ^ M) = 0
        · right
          exact ⟨mag_zero.1 hz, mag_zero.1 (habs ▸ hz)⟩
        · left
          refine hsame ?_ a b
          rw [← habs] at h
          rcases q1' with a | a <;> rcases q2' with b | b <;> rw [a, b] at h ⊢ <;> simp at h <;> omega
  · rintro (rfl | ⟨⟨a, b⟩, c, d⟩)
    · rfl
    · rw [a, b, c, d]
      have : 2 ^ 1 ≤ 2 ^ E := Nat.pow_le_pow_right (by decide) hE
      have hE : ¬ (0 : Nat) = 2 ^ E - 1 := by omega
      simp [hE, mag]

theorem ieeeNan_iff {l : List Byte} (hl : l.length = 4 ∨ l.length = 8) :
    ieeeNan l = true ↔ floatVal l = .nan := by
  unfold ieeeNan floatVal
  rw [beNat_eq]
  rcases hl with hl | hl
  · rw [hl, if_pos rfl, nan_iff (by decide)]
    simp
  · rw [hl, if_neg (by decide), nan_iff (by decide)]
    simp

/-- Equality of the element types `f32` and `f64` is equality of the numbers. -/
theorem ieeeEq_iff {a b : List Byte} (ha : a.length = 4 ∨ a.length = 8) (hab : a.length = b.length) :
    ieeeEq a b = true ↔ FloatEq a b := by
  have hb : b.length = 4 ∨ b.length = 8 := hab ▸ ha
  unfold ieeeEq FloatEq
  simp only [Bool.and_eq_true, Bool.not_eq_true', Bool.or_eq_true, beq_iff_eq]
  rw [← Bool.not_eq_true, ← Bool.not_eq_true, ieeeNan_iff ha, ieeeNan_iff hb]
  have hz : ∀ x : List Byte, x.length = 4 → (ieeeZero x = true ↔ uval x % 2 ^ (8 + 23) = 0) := by
    intro x hx
    simp [ieeeZero, hx, beNat_eq]
  have hz' : ∀ x : List Byte, x.length = 8 → (ieeeZero x = true ↔ uval x % 2 ^ (11 + 52) = 0) := by
    intro x hx
    simp [ieeeZero, hx, beNat_eq]
  have heq : a = b ↔ uval a = uval b := ⟨fun h => by rw [h], uval_inj hab⟩
  have la := uval_lt a
  have lb := uval_lt b
  constructor
  · rintro ⟨⟨h1, h2⟩, h3⟩
    refine ⟨h1, ?_⟩
    unfold floatVal at h1 ⊢
    rcases ha with ha | ha
    · rw [ha] at hab la
      rw [← hab] at lb ⊢
      rw [ha] at h1 ⊢
      rw [if_pos rfl] at h1 ⊢
      rw [if_pos rfl, floatOfBits_inj (by decide) la lb h1, ← heq, ← hz a ha, ← hz b hab.symm]
      exact h3
    · rw [ha] at hab la
      rw [← hab] at lb ⊢
      rw [ha] at h1 ⊢
      rw [if_neg (by decide)] at h1 ⊢
      rw [if_neg (by decide), floatOfBits_inj (by decide) la lb h1, ← heq, ← hz' a ha, ← hz' b hab.symm]
      exact h3
  · rintro ⟨h1, h2⟩
    refine ⟨⟨h1, h2 ▸ h1⟩, ?_⟩
    unfold floatVal at h1 h2
    rcases ha with ha | ha
    · rw [ha] at hab la
      rw [← hab] at lb h2
      rw [ha] at h1 h2
      rw [if_pos rfl] at h1 h2
      rw [if_pos rfl, floatOfBits_inj (by decide) la lb h1, ← heq, ← hz a ha, ← hz b hab.symm] at h2
      exact h2
    · rw [ha] at hab la
      rw [← hab] at lb h2
      rw [ha] at h1 h2
      rw [if_neg (by decide)] at h1 h2
      rw [if_neg (by decide), floatOfBits_inj (by decide) la lb h1, ← heq, ← hz' a ha, ← hz' b hab.symm]
        at h2
      exact h2

/-! ## Integers -/

theorem uval_append (a b : List Byte) : uval (a ++ b) = uval a * 256 ^ b.length + uval b := by
  induction a with
  | nil => simp [uval]
  | cons x a ih =>
    simp only [List.cons_append, uval, ih, List.length_append, Nat.pow_add]
    ring

theorem intBytes_length (k : Nat) (i : Int) : (intBytes k i).length = k := by simp [intBytes]

theorem uval_intBytes (k : Nat) (i : Int) : (uval (intBytes k i) : Int) = i % 256 ^ k := by
  induction k generalizing i with
  | zero => simp [intBytes, uval]
  | succ k ih =>
    have hsplit : intBytes (k + 1) i = intBytes k (i / 256) ++ [UInt8.ofNat (i % 256).toNat] := by
      unfold intBytes
      rw [List.range_succ, List.map_append]
      congr 1
      · apply List.map_congr_left
        intro j hj
        have hj := List.mem_range.1 hj
        have : k + 1 - 1 - j = (k - 1 - j) + 1 := by omega
        rw [this, Nat.pow_succ, Nat.mul_comm]
        congr 3
        push_cast
        rw [Int.ediv_ediv_of_nonneg (by decide)]
      · simp
    rw [hsplit, uval_append]
    have hlt : (i % 256).toNat < 256 := by omega
    simp only [uval, List.length_singleton, Nat.pow_one, List.length_nil, Nat.pow_zero, Nat.mul_one,
      Nat.add_zero]
    push_cast
    rw [ih]
    have e : (UInt8.ofNat (i % 256).toNat).toNat = (i % 256).toNat := by simp; omega
    rw [e, Int.toNat_of_nonneg (by omega), pow_succ]
    have hk : (0 : Int) < 256 ^ k := by positivity
    have r1 := Int.emod_nonneg (i / 256) (ne_of_gt hk)
    have r2 := Int.emod_lt_of_pos (i / 256) hk
    have d1 := Int.mul_ediv_add_emod (i / 256) (256 ^ k)
    have d2 := Int.mul_ediv_add_emod i 256
    have hi : i = ((i / 256) % 256 ^ k * 256 + i % 256) + 256 ^ k * 256 * (i / 256 / 256 ^ k) := by
      linear_combination (-256) * d1 - d2
    have h5 : 0 ≤ i % 256 ∧ i % 256 < 256 := by omega
    generalize i / 256 / 256 ^ k = q at *
    generalize i / 256 % 256 ^ k = r at *
    generalize i % 256 = t at *
    rw [hi, Int.add_mul_emod_self_left, Int.emod_eq_of_lt (by omega) (by omega)]

end Hidefix.Proofs
