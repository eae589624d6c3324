import Verif.Model.Serde
import Verif.Spec.Utf8

/-!
# The check for UTF-8 accepts exactly the encodings of texts
-/

set_option autoImplicit false

namespace Hidefix.Proofs
open Hidefix Hidefix.Spec

theorem u8le {a b : UInt8} : a ≤ b ↔ a.toNat ≤ b.toNat := UInt8.le_iff_toNat_le
theorem u8eq {a b : UInt8} : a = b ↔ a.toNat = b.toNat := UInt8.toNat_inj.symm

theorem u8of {n : Nat} (h : n < 256) : (UInt8.ofNat n).toNat = n := by
  simp; omega

theorem utf8Cont_iff {b : UInt8} : utf8Cont b = true ↔ 128 ≤ b.toNat ∧ b.toNat ≤ 191 := by
  simp [utf8Cont, u8le]

/-- What `utf8` accepts at the front. -/
theorem utf8_one {a : UInt8} {r : List UInt8} (h : a.toNat ≤ 127) : utf8 (a :: r) = utf8 r := by
  have : a ≤ 127 := u8le.2 h
  rw [utf8.eq_def]; simp only [if_pos this]

theorem utf8_char (c : Char) (r : List UInt8) : utf8 (String.utf8EncodeChar c ++ r) = utf8 r := by
  have hv : c.val.toNat < 0xd800 ∨ (0xdfff < c.val.toNat ∧ c.val.toNat < 0x110000) := c.valid
  unfold String.utf8EncodeChar
  simp only
  generalize c.val.toNat = v at hv
  split
  · simp only [List.cons_append, List.nil_append]
    exact utf8_one (by rw [u8of] <;> omega)
  split
  · simp only [List.cons_append, List.nil_append]
    have h1 : (UInt8.ofNat (v / 64 % 32 + 192)).toNat = v / 64 % 32 + 192 := u8of (by omega)
    have h2 : (UInt8.ofNat (v % 64 + 128)).toNat = v % 64 + 128 := u8of (by omega)
    generalize UInt8.ofNat (v / 64 % 32 + 192) = a at h1
    generalize UInt8.ofNat (v % 64 + 128) = b at h2
    rw [utf8.eq_def]; simp only
    have e1 : ¬ a ≤ 127 := by rw [u8le]; simp; omega
    have e2 : 194 ≤ a ∧ a ≤ 223 := by constructor <;> rw [u8le] <;> simp <;> omega
    have e3 : utf8Cont b = true := utf8Cont_iff.2 (by omega)
    simp [e1, e2.1, e2.2, e3]
  split
  · simp only [List.cons_append, List.nil_append]
    have h1 : (UInt8.ofNat (v / 4096 % 16 + 224)).toNat = v / 4096 % 16 + 224 := u8of (by omega)
    have h2 : (UInt8.ofNat (v / 64 % 64 + 128)).toNat = v / 64 % 64 + 128 := u8of (by omega)
    have h3 : (UInt8.ofNat (v % 64 + 128)).toNat = v % 64 + 128 := u8of (by omega)
    generalize UInt8.ofNat (v / 4096 % 16 + 224) = a at h1
    generalize UInt8.ofNat (v / 64 % 64 + 128) = b at h2
    generalize UInt8.ofNat (v % 64 + 128) = d at h3
    rw [utf8.eq_def]; simp only
    have e1 : ¬ a ≤ 127 := by rw [u8le]; simp; omega
    have e2 : ¬ a ≤ 223 := by rw [u8le]; simp; omega
    have e3 : utf8Cont b = true := utf8Cont_iff.2 (by omega)
    have e4 : utf8Cont d = true := utf8Cont_iff.2 (by omega)
    simp only [e1, e2, e3, e4, u8le, u8eq, if_false, decide_false, Bool.and_false, beq_iff_eq,
      Bool.false_eq_true, Bool.and_eq_true, decide_eq_true_eq, Bool.and_true, Bool.true_and]
    simp only [UInt8.reduceToNat, h1, h2]
    split
    · rw [decide_eq_true (by omega), decide_eq_true (by omega)]; rfl
    split
    · rw [decide_eq_true (by omega), decide_eq_true (by omega)]; rfl
    split
    · rfl
    · omega
  · simp only [List.cons_append, List.nil_append]
    have h1 : (UInt8.ofNat (v / 262144 % 8 + 240)).toNat = v / 262144 % 8 + 240 := u8of (by omega)
    have h2 : (UInt8.ofNat (v / 4096 % 64 + 128)).toNat = v / 4096 % 64 + 128 := u8of (by omega)
    have h3 : (UInt8.ofNat (v / 64 % 64 + 128)).toNat = v / 64 % 64 + 128 := u8of (by omega)
    have h4 : (UInt8.ofNat (v % 64 + 128)).toNat = v % 64 + 128 := u8of (by omega)
    generalize UInt8.ofNat (v / 262144 % 8 + 240) = a at h1
    generalize UInt8.ofNat (v / 4096 % 64 + 128) = b at h2
    generalize UInt8.ofNat (v / 64 % 64 + 128) = d at h3
    generalize UInt8.ofNat (v % 64 + 128) = e at h4
    rw [utf8.eq_def]; simp only
    have e1 : ¬ a ≤ 127 := by rw [u8le]; simp; omega
    have e2 : ¬ a ≤ 223 := by rw [u8le]; simp; omega
    have e2' : ¬ a ≤ 239 := by rw [u8le]; simp; omega
    have e3 : utf8Cont b = true := utf8Cont_iff.2 (by omega)
    have e4 : utf8Cont d = true := utf8Cont_iff.2 (by omega)
    have e5 : utf8Cont e = true := utf8Cont_iff.2 (by omega)
    simp only [e1, e2, e2', e3, e4, e5, u8le, u8eq, if_false, decide_false, Bool.and_false, beq_iff_eq,
      Bool.false_eq_true, Bool.and_eq_true, decide_eq_true_eq, Bool.and_true, Bool.true_and]
    simp only [UInt8.reduceToNat, h1, h2]
    rw [if_neg (by omega), if_neg (by omega)]
    split
    · rw [decide_eq_true (by omega), decide_eq_true (by omega)]; rfl
    split
    · rfl
    split
    · rw [decide_eq_true (by omega), decide_eq_true (by omega)]; rfl
    · omega

/-- The character with a given scalar value. -/
theorem charOf {v : Nat} (h : v < 0xd800 ∨ (0xdfff < v ∧ v < 0x110000)) : ∃ c : Char, c.val.toNat = v :=
  ⟨Char.ofNat v, by
    have : v.isValidChar := h
    rw [Char.ofNat, dif_pos this]
    rfl⟩

theorem utf8_front {l : List UInt8} (hne : l ≠ []) (h : utf8 l = true) :
    ∃ c r, l = String.utf8EncodeChar c ++ r ∧ utf8 r = true := by
  have byte : ∀ (x : UInt8) (n : Nat), x.toNat = n → UInt8.ofNat n = x := by
    rintro x n rfl; simp
  match l, hne with
  | a :: r, _ =>
  rw [utf8.eq_def] at h; simp only at h
  split at h
  · rename_i ha
    rw [u8le] at ha
    simp only [UInt8.reduceToNat] at ha
    obtain ⟨c, hc⟩ := charOf (v := a.toNat) (by omega)
    refine ⟨c, r, ?_, h⟩
    simp only [String.utf8EncodeChar, hc, if_pos ha]
    rw [byte a _ rfl]; rfl
  rename_i ha
  rw [u8le] at ha
  simp only [UInt8.reduceToNat] at ha
  match r with
  | [] => simp at h
  | b :: r =>
  simp only at h
  split at h
  · rename_i hb
    simp only [Bool.and_eq_true, decide_eq_true_eq, u8le, UInt8.reduceToNat, utf8Cont_iff] at hb h
    obtain ⟨c, hc⟩ := charOf (v := (a.toNat - 192) * 64 + (b.toNat - 128)) (by omega)
    refine ⟨c, r, ?_, h.2⟩
    simp only [String.utf8EncodeChar, hc]
    rw [if_neg (by omega), if_pos (by omega), byte a _ (by omega), byte b _ (by omega)]; rfl
  rename_i ha2
  simp only [Bool.and_eq_true, decide_eq_true_eq, u8le, UInt8.reduceToNat] at ha2
  match r with
  | [] => simp at h
  | d :: r =>
  simp only at h
  by_cases h3 : a.toNat ≤ 239
  · have key : 224 ≤ a.toNat ∧ 128 ≤ b.toNat ∧ b.toNat ≤ 191 ∧ 128 ≤ d.toNat ∧ d.toNat ≤ 191 ∧
        (a.toNat = 224 → 160 ≤ b.toNat) ∧ (a.toNat = 237 → b.toNat ≤ 159) ∧ utf8 r = true := by
      split at h
      · rename_i hb
        simp only [beq_iff_eq, u8eq, Bool.and_eq_true, decide_eq_true_eq, u8le, UInt8.reduceToNat,
          utf8Cont_iff] at hb h
        exact ⟨by omega, by omega, by omega, by omega, by omega, by omega, by omega, h.2⟩
      split at h
      · rename_i hb0 hb
        simp only [beq_iff_eq, u8eq, Bool.and_eq_true, decide_eq_true_eq, u8le, UInt8.reduceToNat,
          utf8Cont_iff] at hb0 hb h
        exact ⟨by omega, by omega, by omega, by omega, by omega, by omega, by omega, h.2⟩
      split at h
      · rename_i hb0 hb1 hb
        simp only [beq_iff_eq, u8eq, Bool.and_eq_true, decide_eq_true_eq, u8le, UInt8.reduceToNat,
          utf8Cont_iff] at hb0 hb1 hb h
        exact ⟨by omega, by omega, by omega, by omega, by omega, by omega, by omega, h.2⟩
      · rename_i hb0 hb1 hb
        simp only [beq_iff_eq, u8eq, Bool.and_eq_true, decide_eq_true_eq, u8le, UInt8.reduceToNat]
          at hb0 hb1 hb
        exfalso
        match r with
        | [] => simp at h
        | e :: r =>
        simp only [beq_iff_eq, u8eq, Bool.and_eq_true, decide_eq_true_eq, u8le, UInt8.reduceToNat] at h
        rw [if_neg (by omega), if_neg (by omega), if_neg (by omega)] at h
        exact Bool.false_ne_true h
    obtain ⟨k1, k2, k3, k4, k5, k6, k7, k8⟩ := key
    have hb : b.toNat < 256 := UInt8.toNat_lt b
    obtain ⟨c, hc⟩ := charOf (v := (a.toNat - 224) * 4096 + (b.toNat - 128) * 64 + (d.toNat - 128))
      (by omega)
    refine ⟨c, r, ?_, k8⟩
    simp only [String.utf8EncodeChar, hc]
    rw [if_neg (by omega), if_neg (by omega), if_pos (by omega), byte a _ (by omega), byte b _ (by omega),
      byte d _ (by omega)]
    rfl
  · simp only [beq_iff_eq, u8eq, Bool.and_eq_true, decide_eq_true_eq, u8le, UInt8.reduceToNat] at h
    rw [if_neg (by omega), if_neg (by omega), if_neg (by omega)] at h
    match r with
    | [] => simp at h
    | e :: r =>
    have key : 240 ≤ a.toNat ∧ a.toNat ≤ 244 ∧ 128 ≤ b.toNat ∧ b.toNat ≤ 191 ∧ 128 ≤ d.toNat ∧
        d.toNat ≤ 191 ∧ 128 ≤ e.toNat ∧ e.toNat ≤ 191 ∧
        (a.toNat = 240 → 144 ≤ b.toNat) ∧ (a.toNat = 244 → b.toNat ≤ 143) ∧ utf8 r = true := by
      simp only at h
      split at h
      · rename_i hb
        simp only [Bool.and_eq_true, decide_eq_true_eq, utf8Cont_iff] at h
        exact ⟨by omega, by omega, by omega, by omega, by omega, by omega, by omega, by omega, by omega,
          by omega, h.2⟩
      split at h
      · rename_i hb0 hb
        simp only [Bool.and_eq_true, decide_eq_true_eq, utf8Cont_iff] at h
        exact ⟨by omega, by omega, by omega, by omega, by omega, by omega, by omega, by omega, by omega,
          by omega, h.2⟩
      split at h
      · rename_i hb0 hb1 hb
        simp only [Bool.and_eq_true, decide_eq_true_eq, utf8Cont_iff] at h
        exact ⟨by omega, by omega, by omega, by omega, by omega, by omega, by omega, by omega, by omega,
          by omega, h.2⟩
      · exact absurd h Bool.false_ne_true
    obtain ⟨k1, k2, k3, k4, k5, k6, k7, k8, k9, k10, k11⟩ := key
    obtain ⟨c, hc⟩ := charOf (v := (a.toNat - 240) * 262144 + (b.toNat - 128) * 4096 +
      (d.toNat - 128) * 64 + (e.toNat - 128)) (by omega)
    refine ⟨c, r, ?_, k11⟩
    simp only [String.utf8EncodeChar, hc]
    rw [if_neg (by omega), if_neg (by omega), if_neg (by omega), byte a _ (by omega), byte b _ (by omega),
      byte d _ (by omega), byte e _ (by omega)]
    rfl

/-- The check for UTF-8 accepts exactly the encodings of texts. -/
theorem utf8_iff {l : List UInt8} : utf8 l = true ↔ IsUtf8 l := by
  constructor
  · intro h
    induction hn : l.length using Nat.strongRecOn generalizing l with
    | ind n ih =>
      by_cases hne : l = []
      · exact ⟨[], by simp [hne]⟩
      · obtain ⟨c, r, rfl, hr⟩ := utf8_front hne h
        have : String.utf8EncodeChar c ≠ [] := String.utf8EncodeChar_ne_nil
        obtain ⟨cs, rfl⟩ := ih r.length (by
          have := List.length_pos_iff.2 this
          simp only [List.length_append] at hn; omega) hr rfl
        exact ⟨c :: cs, by simp⟩
  · rintro ⟨cs, rfl⟩
    induction cs with
    | nil => simp [utf8]
    | cons c cs ih => rw [List.flatMap_cons, utf8_char, ih]

end Hidefix.Proofs
