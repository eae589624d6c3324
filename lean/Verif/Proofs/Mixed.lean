import Verif.Spec.Good
import Mathlib.Tactic.Ring

/-!
# Mixed-radix positions of a selection (innermost dimension first)
-/

namespace Hidefix.Proofs
open Hidefix Hidefix.Spec

/-- A usable dimension. -/
structure DimOk (d : Dim) : Prop where
  cnt : 0 < d.cnt
  cs : 0 < d.cs
  fit : d.idx + d.cnt ≤ d.shp
  edge : d.shp + d.cs ≤ W

/-- Offset coordinates of the `n`-th element. -/
def digits : List Dim → Nat → List Nat
  | [], _ => []
  | d :: L, n => n % d.cnt :: digits L (n / d.cnt)

/-- Coordinates of the `n`-th element. -/
def coords : List Dim → Nat → List Nat
  | [], _ => []
  | d :: L, n => (d.idx + n % d.cnt) :: coords L (n / d.cnt)

/-- Grid cell of the `n`-th element. -/
def cell : List Dim → Nat → List Nat
  | [], _ => []
  | d :: L, n => (d.idx + n % d.cnt) / d.cs :: cell L (n / d.cnt)

/-- Position in its chunk of the `n`-th element. -/
def pos : List Dim → Nat → Nat
  | [], _ => 0
  | d :: L, n => (d.idx + n % d.cnt) % d.cs + d.cs * pos L (n / d.cnt)

/-- The `a` elements from the `n`-th on are stored consecutively in one chunk. -/
def Run (L : List Dim) (n a : Nat) : Prop :=
  ∀ i, i < a → cell L (n + i) = cell L n ∧ pos L (n + i) = pos L n + i

theorem tot_cons (d : Dim) (L : List Dim) : tot (d :: L) = d.cnt * tot L := by
  simp [tot]

theorem tot_pos {L : List Dim} (h : ∀ d ∈ L, DimOk d) : 0 < tot L := by
  induction L with
  | nil => simp [tot]
  | cons d L ih =>
    rw [tot_cons]
    exact Nat.mul_pos (h d (by simp)).cnt (ih fun x hx => h x (by simp [hx]))

theorem run_one (L : List Dim) (n : Nat) : Run L n 1 := by
  intro i hi
  have : i = 0 := by omega
  subst this; simp

theorem add_mod_div_of_lt {m k c : Nat} (_hc : 0 < c) (h : m % c + k < c) :
    (m + k) % c = m % c + k ∧ (m + k) / c = m / c := by
  have e : m + k = (m % c + k) + c * (m / c) := by
    have := Nat.mod_add_div m c; omega
  constructor
  · rw [e, Nat.add_mul_mod_self_left, Nat.mod_eq_of_lt h]
  · rw [e, Nat.add_mul_div_left _ _ (by omega), Nat.div_eq_of_lt h, Nat.zero_add]

/-- Staying inside the current chunk and the current row. -/
theorem run_row {d : Dim} {L : List Dim} (hd : DimOk d) {m a : Nat}
    (h1 : m % d.cnt + a ≤ d.cnt) (h2 : m % d.cnt + a ≤ d.cce (m % d.cnt)) : Run (d :: L) m a := by
  intro i hi
  have hlt : m % d.cnt + i < d.cnt := by omega
  obtain ⟨e1, e2⟩ := add_mod_div_of_lt hd.cnt hlt
  have hcs := hd.cs
  have hcce : m % d.cnt + i + d.idx < d.coff (m % d.cnt) + d.cs := by
    unfold Dim.cce at h2
    have : min (d.coff (m % d.cnt) + d.cs) d.shp ≤ d.coff (m % d.cnt) + d.cs := Nat.min_le_left _ _
    omega
  unfold Dim.coff at hcce
  generalize ho : m % d.cnt = o at *
  have hlt2 : (d.idx + o) % d.cs + i < d.cs := by
    have := Nat.mod_add_div (d.idx + o) d.cs
    rw [Nat.mul_comm] at this
    omega
  obtain ⟨f1, f2⟩ := add_mod_div_of_lt hcs hlt2
  have g : d.idx + (o + i) = d.idx + o + i := by omega
  simp only [cell, pos, e1, e2, g, f1, f2, ho, true_and]
  omega

/-- Whole rows: if dimension `d` is exactly one uncut chunk, a run of rows is a run of elements. -/
theorem run_exact {d : Dim} {L : List Dim} (hd : DimOk d) (hex : d.exact = true) {m b : Nat}
    (h : Run L (m / d.cnt) b) : Run (d :: L) m (d.cnt * (m / d.cnt + b) - m) := by
  intro i hi
  simp only [Dim.exact, Bool.and_eq_true, beq_iff_eq] at hex
  obtain ⟨h0, hc⟩ := hex
  have hpos := hd.cnt
  have key : ∀ n, cell (d :: L) n = d.idx / d.cs :: cell L (n / d.cnt) ∧
      pos (d :: L) n = n % d.cnt + d.cnt * pos L (n / d.cnt) := by
    intro n
    have hn : n % d.cnt < d.cs := by rw [← hc]; exact Nat.mod_lt _ hpos
    have e : d.idx = d.cs * (d.idx / d.cs) := by
      have := Nat.mod_add_div d.idx d.cs; omega
    constructor
    · simp only [cell]
      congr 1
      conv => lhs; rw [e]
      rw [Nat.mul_add_div (by omega), Nat.div_eq_of_lt hn, Nat.add_zero]
    · simp only [pos]
      conv => lhs; lhs; rw [e]
      rw [Nat.mul_add_mod, Nat.mod_eq_of_lt hn, hc]
  have hdm := Nat.div_add_mod m d.cnt
  have hdmi := Nat.div_add_mod (m + i) d.cnt
  have hle : m / d.cnt ≤ (m + i) / d.cnt := Nat.div_le_div_right (by omega)
  have hlt : (m + i) / d.cnt < m / d.cnt + b := by
    rw [Nat.div_lt_iff_lt_mul hpos, Nat.mul_comm]; omega
  obtain ⟨r1, r2⟩ := h ((m + i) / d.cnt - m / d.cnt) (by omega)
  have e : m / d.cnt + ((m + i) / d.cnt - m / d.cnt) = (m + i) / d.cnt := by omega
  rw [e] at r1 r2
  rw [(key (m + i)).1, (key (m + i)).2, (key m).1, (key m).2, r1, r2]
  refine ⟨rfl, ?_⟩
  generalize (m + i) / d.cnt = q at *
  generalize m / d.cnt = r at *
  obtain ⟨t, rfl⟩ := Nat.exists_eq_add_of_le hle
  simp only [Nat.add_sub_cancel_left, Nat.mul_add] at *
  omega

end Hidefix.Proofs
