import Verif.Model.Filters
import Verif.Spec.Store

/-!
# Shuffle
-/

set_option autoImplicit false

namespace Hidefix.Proofs
open Hidefix Hidefix.Spec Outcome

/-- A sequence of copies `dest[t] = src[φ t]`. -/
theorem copyFold {src : List Byte} (φ : Nat → Nat) (ps : List (Nat × Nat)) (dest : List Byte)
    (ht : ∀ q ∈ ps, q.1 < dest.length) (hf : ∀ q ∈ ps, q.2 < src.length)
    (hφ : ∀ q ∈ ps, q.2 = φ q.1) :
    ∃ d, ps.foldlM (fun d q => copyByte src d q.1 q.2) dest = ok d ∧ d.length = dest.length ∧
      ∀ k, d[k]? = if k ∈ ps.map Prod.fst then src[φ k]? else dest[k]? := by
  induction ps generalizing dest with
  | nil => exact ⟨dest, rfl, rfl, by simp⟩
  | cons q ps ih =>
    obtain ⟨t, f⟩ := q
    have h1 := ht (t, f) (by simp)
    have h2 := hf (t, f) (by simp)
    have h3 := hφ (t, f) (by simp)
    simp only at h1 h2 h3
    have hstep : copyByte src dest t f = ok (dest.set t src[f]) := by
      unfold copyByte
      rw [List.getElem?_eq_getElem h2]
      simp [h1]
    obtain ⟨d, e1, e2, e3⟩ := ih (dest.set t src[f]) (by
      intro q hq; rw [List.length_set]; exact ht q (by simp [hq]))
      (fun q hq => hf q (by simp [hq])) (fun q hq => hφ q (by simp [hq]))
    refine ⟨d, ?_, by rw [e2, List.length_set], ?_⟩
    · rw [List.foldlM_cons]; simp only [hstep, ok_bind]; exact e1
    · intro k
      rw [e3 k]
      by_cases hk : k ∈ ps.map Prod.fst
      · simp only [hk, if_true, List.map_cons, List.mem_cons, or_true]
      · simp only [hk, if_false, List.map_cons, List.mem_cons, or_false]
        by_cases hkt : k = t
        · subst hkt
          rw [if_pos rfl, List.getElem?_set_self h1, ← h3, List.getElem?_eq_getElem h2]
        · rw [if_neg hkt, List.getElem?_set_ne (Ne.symm hkt)]

/-- The double loop as a permutation of positions. -/
theorem copyLoop_ok {a b : Nat} {tgt from_ : Nat → Nat → Nat} {src dest : List Byte} (φ : Nat → Nat)
    (ht : ∀ i j, i < a → j < b → tgt i j < dest.length)
    (hf : ∀ i j, i < a → j < b → from_ i j < src.length)
    (hφ : ∀ i j, i < a → j < b → from_ i j = φ (tgt i j))
    (hcov : ∀ k, k < dest.length → ∃ i j, i < a ∧ j < b ∧ tgt i j = k)
    (hlen : dest.length = src.length) (hφl : ∀ k, k < dest.length → φ k < src.length) :
    ∃ d, copyLoop a b tgt from_ src dest = ok d ∧ d.length = dest.length ∧
      ∀ k, k < dest.length → d[k]? = src[φ k]? := by
  have hmem : ∀ i j, (i, j) ∈ ((List.range a).flatMap fun i => (List.range b).map fun j => (i, j)) ↔
      i < a ∧ j < b := by
    intro i j
    simp only [List.mem_flatMap, List.mem_range, List.mem_map, Prod.mk.injEq]
    constructor
    · rintro ⟨i', hi, j', hj, rfl, rfl⟩; exact ⟨hi, hj⟩
    · rintro ⟨hi, hj⟩; exact ⟨i, hi, j, hj, rfl, rfl⟩
  obtain ⟨d, h1, h2, h3⟩ := copyFold (src := src) φ
    (((List.range a).flatMap fun i => (List.range b).map fun j => (i, j)).map fun ij =>
      (tgt ij.1 ij.2, from_ ij.1 ij.2)) dest
    (by
      intro q hq
      obtain ⟨⟨i, j⟩, hij, rfl⟩ := List.mem_map.1 hq
      exact ht i j ((hmem i j).1 hij).1 ((hmem i j).1 hij).2)
    (by
      intro q hq
      obtain ⟨⟨i, j⟩, hij, rfl⟩ := List.mem_map.1 hq
      exact hf i j ((hmem i j).1 hij).1 ((hmem i j).1 hij).2)
    (by
      intro q hq
      obtain ⟨⟨i, j⟩, hij, rfl⟩ := List.mem_map.1 hq
      exact hφ i j ((hmem i j).1 hij).1 ((hmem i j).1 hij).2)
  refine ⟨d, ?_, h2, ?_⟩
  · unfold copyLoop
    rw [List.foldlM_map] at h1
    exact h1
  · intro k hk
    rw [h3 k, if_pos]
    obtain ⟨i, j, hi, hj, rfl⟩ := hcov k hk
    rw [List.map_map]
    exact List.mem_map.2 ⟨(i, j), (hmem i j).2 ⟨hi, hj⟩, rfl⟩

/-- Position in the unshuffled data of shuffled position `k` (`n` words of `w` bytes). -/
def shufPos (w n k : Nat) : Nat := (k % n) * w + k / n

theorem pos_lt' {a b i j : Nat} (hi : i < a) (hj : j < b) : i * b + j < a * b := by
  have : (i + 1) * b ≤ a * b := Nat.mul_le_mul_right _ hi
  rw [Nat.add_mul] at this; omega

theorem shufPos_lt {w n k : Nat} (h : k < w * n) : shufPos w n k < w * n := by
  have hn : 0 < n := by rcases Nat.eq_zero_or_pos n with rfl | h'; · simp at h
                        · exact h'
  have h1 : k % n < n := Nat.mod_lt _ hn
  have h2 : k / n < w := by rw [Nat.div_lt_iff_lt_mul hn]; exact h
  have := pos_lt' h1 h2
  rw [Nat.mul_comm w n]; exact this

theorem shufPos_shufPos {w n k : Nat} (h : k < w * n) : shufPos n w (shufPos w n k) = k := by
  have hn : 0 < n := by rcases Nat.eq_zero_or_pos n with rfl | h'; · simp at h
                        · exact h'
  have hw : 0 < w := by rcases Nat.eq_zero_or_pos w with rfl | h'; · simp at h
                        · exact h'
  have h2 : k / n < w := by rw [Nat.div_lt_iff_lt_mul hn]; exact h
  unfold shufPos
  have e1 : (k % n * w + k / n) % w = k / n := by
    rw [Nat.mul_comm, Nat.mul_add_mod, Nat.mod_eq_of_lt h2]
  have e2 : (k % n * w + k / n) / w = k % n := by
    rw [Nat.mul_comm, Nat.mul_add_div hw, Nat.div_eq_of_lt h2, Nat.add_zero]
  rw [e1, e2]
  exact Nat.div_add_mod' k n

theorem shufPos_mk {w n i j : Nat} (_hi : i < w) (hj : j < n) : shufPos w n (i * n + j) = j * w + i := by
  unfold shufPos
  have hn : 0 < n := by omega
  rw [Nat.mul_comm i n, Nat.mul_add_mod, Nat.mod_eq_of_lt hj, Nat.mul_add_div hn,
    Nat.div_eq_of_lt hj, Nat.add_zero]

/-- `shuffle` on `n` words. -/
theorem shuffle_ok {w n : Nat} {src dest : List Byte} (hw : 0 < w) (hs : src.length = w * n)
    (hd : dest.length = w * n) :
    ∃ d, shuffle w src dest = ok d ∧ d.length = w * n ∧
      ∀ k, k < w * n → d[k]? = src[shufPos w n k]? := by
  have hdiv : src.length / w = n := by rw [hs]; exact Nat.mul_div_cancel_left n hw
  unfold shuffle
  simp only [hdiv]
  rw [show (dest.length == src.length) = true by simp [hs, hd]]
  simp only [assert_true, ok_bind]
  obtain ⟨d, h1, h2, h3⟩ := copyLoop_ok (a := w) (b := n) (tgt := fun i j => i * n + j)
    (from_ := fun i j => j * w + i) (src := src) (dest := dest) (shufPos w n)
    (fun i j hi hj => by rw [hd]; exact pos_lt' hi hj)
    (fun i j hi hj => by rw [hs, Nat.mul_comm w n]; exact pos_lt' hj hi)
    (fun i j hi hj => (shufPos_mk hi hj).symm)
    (by
      intro k hk
      rw [hd] at hk
      have hn : 0 < n := by rcases Nat.eq_zero_or_pos n with rfl | h'; · simp at hk
                            · exact h'
      exact ⟨k / n, k % n, by rw [Nat.div_lt_iff_lt_mul hn]; exact hk, Nat.mod_lt _ hn,
        Nat.div_add_mod' k n⟩)
    (by rw [hd, hs]) (fun k hk => by rw [hs]; rw [hd] at hk; exact shufPos_lt hk)
  exact ⟨d, h1, by rw [h2, hd], fun k hk => h3 k (by rw [hd]; exact hk)⟩

/-- `unshuffle` into `n` words. -/
theorem unshuffle_ok {w n : Nat} {src dest : List Byte} (hw : 0 < w) (hs : src.length = w * n)
    (hd : dest.length = w * n) :
    ∃ d, unshuffle w src dest = ok d ∧ d.length = w * n ∧
      ∀ k, k < w * n → d[k]? = src[shufPos n w k]? := by
  have hdiv : dest.length / w = n := by rw [hd]; exact Nat.mul_div_cancel_left n hw
  unfold unshuffle
  simp only [hdiv]
  rw [show (dest.length == src.length) = true by simp [hs, hd]]
  simp only [assert_true, ok_bind]
  obtain ⟨d, h1, h2, h3⟩ := copyLoop_ok (a := w) (b := n) (tgt := fun i j => j * w + i)
    (from_ := fun i j => i * n + j) (src := src) (dest := dest) (shufPos n w)
    (fun i j hi hj => by rw [hd, Nat.mul_comm w n]; exact pos_lt' hj hi)
    (fun i j hi hj => by rw [hs]; exact pos_lt' hi hj)
    (fun i j hi hj => (shufPos_mk hj hi).symm)
    (by
      intro k hk
      rw [hd] at hk
      exact ⟨k % w, k / w, Nat.mod_lt _ hw,
        by rw [Nat.div_lt_iff_lt_mul hw, Nat.mul_comm]; exact hk, Nat.div_add_mod' k w⟩)
    (by rw [hd, hs]) (fun k hk => by
      rw [hs, Nat.mul_comm]; rw [hd, Nat.mul_comm] at hk; exact shufPos_lt hk)
  exact ⟨d, h1, by rw [h2, hd], fun k hk => h3 k (by rw [hd]; exact hk)⟩

/-- `unshuffle_structured` on `n` words. -/
theorem unshuffleStructured_ok {w n : Nat} {src dest : List Byte} (hw : 0 < w)
    (hs : src.length = w * n) (hd : dest.length = w * n) :
    ∃ d, unshuffleStructured w src dest = ok d ∧ d.length = w * n ∧
      ∀ k, k < w * n → d[k]? = src[shufPos n w k]? := by
  have hdiv : src.length / w = n := by rw [hs]; exact Nat.mul_div_cancel_left n hw
  have hmod : src.length % w = 0 := by rw [hs]; exact Nat.mul_mod_right w n
  unfold unshuffleStructured
  rw [if_neg (by omega)]
  simp only [hdiv, hmod, beq_self_eq_true, assert_true, ok_bind]
  rw [show (src.length == dest.length) = true by simp [hs, hd]]
  simp only [assert_true, ok_bind]
  obtain ⟨d, h1, h2, h3⟩ := copyLoop_ok (a := n) (b := w) (tgt := fun j i => j * w + i)
    (from_ := fun j i => i * n + j) (src := src) (dest := dest) (shufPos n w)
    (fun j i hj hi => by rw [hd, Nat.mul_comm w n]; exact pos_lt' hj hi)
    (fun j i hj hi => by rw [hs]; exact pos_lt' hi hj)
    (fun j i hj hi => (shufPos_mk hj hi).symm)
    (by
      intro k hk
      rw [hd] at hk
      exact ⟨k / w, k % w, by rw [Nat.div_lt_iff_lt_mul hw, Nat.mul_comm]; exact hk,
        Nat.mod_lt _ hw, Nat.div_add_mod' k w⟩)
    (by rw [hd, hs]) (fun k hk => by
      rw [hs, Nat.mul_comm]; rw [hd, Nat.mul_comm] at hk; exact shufPos_lt hk)
  exact ⟨d, h1, by rw [h2, hd], fun k hk => h3 k (by rw [hd]; exact hk)⟩

theorem shuffled_length {w n : Nat} {b : List Byte} (hw : 0 < w) (hb : b.length = w * n) :
    (shuffled w b).length = w * n := by
  have hdiv : b.length / w = n := by rw [hb]; exact Nat.mul_div_cancel_left n hw
  unfold shuffled
  rw [hdiv, List.length_flatMap]
  simp

theorem getElem?_flatMap_range {α : Type} (f : Nat → Nat → α) (a n k : Nat) (h : k < a * n) :
    ((List.range a).flatMap fun i => (List.range n).map fun j => f i j)[k]? =
      some (f (k / n) (k % n)) := by
  have hn : 0 < n := by rcases Nat.eq_zero_or_pos n with rfl | h'; · simp at h
                        · exact h'
  induction a with
  | zero => simp at h
  | succ a ih =>
    rw [List.range_succ, List.flatMap_append]
    have hl : ((List.range a).flatMap fun i => (List.range n).map fun j => f i j).length = a * n := by
      rw [List.length_flatMap]; simp
    by_cases hk : k < a * n
    · rw [List.getElem?_append_left (by rw [hl]; exact hk), ih hk]
    · rw [List.getElem?_append_right (by rw [hl]; omega), hl]
      rw [Nat.add_mul, Nat.one_mul] at h
      have hq : k / n = a := by
        rw [Nat.div_eq_iff hn]; constructor
        · omega
        · omega
      have hr : k % n = k - a * n := by
        have := Nat.div_add_mod' k n
        rw [hq] at this; omega
      rw [hq, hr]
      simp only [List.flatMap_cons, List.flatMap_nil, List.append_nil]
      rw [List.getElem?_map, List.getElem?_range (by omega)]
      rfl

/-- The specification, position by position. -/
theorem shuffled_get {w n : Nat} {b : List Byte} (hw : 0 < w) (hb : b.length = w * n) (k : Nat)
    (hk : k < w * n) : (shuffled w b)[k]? = b[shufPos w n k]? := by
  have hdiv : b.length / w = n := by rw [hb]; exact Nat.mul_div_cancel_left n hw
  unfold shuffled
  rw [hdiv, getElem?_flatMap_range _ w n k hk]
  have := shufPos_lt hk
  rw [List.getD_eq_getElem?_getD]
  unfold shufPos at this ⊢
  rw [List.getElem?_eq_getElem (by omega)]
  rfl

theorem eq_of_getElem? {α : Type} {a b : List α} {n : Nat} (ha : a.length = n) (hb : b.length = n)
    (h : ∀ k, k < n → a[k]? = b[k]?) : a = b := by
  apply List.ext_getElem?
  intro k
  by_cases hk : k < n
  · exact h k hk
  · rw [List.getElem?_eq_none (by omega), List.getElem?_eq_none (by omega)]

/-- `shuffle` computes HDF5's shuffle. -/
theorem shuffle_spec {w : Nat} {src dest : List Byte} (hw : 0 < w) (hm : w ∣ src.length)
    (hd : dest.length = src.length) : shuffle w src dest = ok (shuffled w src) := by
  obtain ⟨n, hs⟩ := hm
  obtain ⟨d, h1, h2, h3⟩ := shuffle_ok hw hs (hd.trans hs)
  rw [h1, eq_of_getElem? h2 (shuffled_length hw hs) fun k hk => by
    rw [h3 k hk, shuffled_get hw hs k hk]]

theorem unshuffle_shuffled {w : Nat} {b dest : List Byte} (hw : 0 < w) (hm : w ∣ b.length)
    (hd : dest.length = b.length) : unshuffle w (shuffled w b) dest = ok b := by
  obtain ⟨n, hs⟩ := hm
  have hl := shuffled_length hw hs
  obtain ⟨d, h1, h2, h3⟩ := unshuffle_ok hw hl (hd.trans hs)
  rw [h1, eq_of_getElem? h2 hs fun k hk => by
    have hk' : k < n * w := by rw [Nat.mul_comm]; exact hk
    rw [h3 k hk, shuffled_get hw hs _ (by rw [Nat.mul_comm w n]; exact shufPos_lt hk'),
      shufPos_shufPos hk']]

theorem structured_shuffled {w : Nat} {b dest : List Byte} (hw : 0 < w) (hm : w ∣ b.length)
    (hd : dest.length = b.length) : unshuffleStructured w (shuffled w b) dest = ok b := by
  obtain ⟨n, hs⟩ := hm
  have hl := shuffled_length hw hs
  obtain ⟨d, h1, h2, h3⟩ := unshuffleStructured_ok hw hl (hd.trans hs)
  rw [h1, eq_of_getElem? h2 hs fun k hk => by
    have hk' : k < n * w := by rw [Nat.mul_comm]; exact hk
    rw [h3 k hk, shuffled_get hw hs _ (by rw [Nat.mul_comm w n]; exact shufPos_lt hk'),
      shufPos_shufPos hk']]

theorem shuffle_unshuffle {w : Nat} {y d1 d2 : List Byte} (hw : 0 < w) (hm : w ∣ y.length)
    (h1 : d1.length = y.length) (h2 : d2.length = y.length) :
    (unshuffle w y d1 >>= fun x => shuffle w x d2) = ok y := by
  obtain ⟨n, hs⟩ := hm
  obtain ⟨d, e1, e2, e3⟩ := unshuffle_ok hw hs (h1.trans hs)
  rw [e1, ok_bind]
  obtain ⟨d', f1, f2, f3⟩ := shuffle_ok (dest := d2) hw e2 (h2.trans hs)
  rw [f1, eq_of_getElem? f2 hs fun k hk => by
    rw [f3 k hk, e3 _ (shufPos_lt hk), shufPos_shufPos hk]]

/-- The two unshuffles agree on every input of matching length. -/
theorem structured_eq_unshuffle {w : Nat} {src dest : List Byte} (hw : 0 < w)
    (hm : w ∣ src.length) (hd : dest.length = src.length) :
    unshuffleStructured w src dest = unshuffle w src dest := by
  obtain ⟨n, hs⟩ := hm
  obtain ⟨d, e1, e2, e3⟩ := unshuffle_ok hw hs (hd.trans hs)
  obtain ⟨d', f1, f2, f3⟩ := unshuffleStructured_ok hw hs (hd.trans hs)
  rw [e1, f1, eq_of_getElem? f2 e2 fun k hk => by rw [f3 k hk, e3 k hk]]

/-- Out of range lengths panic; there is no undefined behaviour. -/
theorem unshuffleStructured_okp (w : Nat) (src dest : List Byte) :
    (∃ d, unshuffleStructured w src dest = ok d ∧ d.length = src.length) ∨
      ∃ f, unshuffleStructured w src dest = .panic f := by
  by_cases hl : src.length = dest.length
  · by_cases hw : w = 0
    · right; unfold unshuffleStructured; simp [hl, hw]
    · by_cases hm : src.length % w = 0
      · obtain ⟨n, hs⟩ := Nat.dvd_of_mod_eq_zero hm
        obtain ⟨d, h1, h2, -⟩ := unshuffleStructured_ok (Nat.pos_of_ne_zero hw) hs (hl ▸ hs)
        exact .inl ⟨d, h1, by rw [h2, hs]⟩
      · right; unfold unshuffleStructured
        simp [hw, hl]
        rw [← hl]
        simp [assertP, hm]
  · right; unfold unshuffleStructured; simp [assertP, hl]

theorem unshuffleSized_okp (src : List Byte) (sz : Nat) :
    (∃ d, unshuffleSized src sz = ok d ∧ d.length = src.length) ∨
      ∃ f, unshuffleSized src sz = .panic f := by
  unfold unshuffleSized
  dsimp only
  split
  · exact .inl ⟨src, rfl, rfl⟩
  · exact unshuffleStructured_okp _ _ _
  · exact unshuffleStructured_okp _ _ _
  · exact unshuffleStructured_okp _ _ _
  · exact .inr ⟨_, rfl⟩

theorem unshuffleSized_shuffled {b : List Byte} {k : Nat} (hk : k = 1 ∨ k = 2 ∨ k = 4 ∨ k = 8)
    (hm : k ∣ b.length) : unshuffleSized (shuffled k b) k = ok b := by
  have hl : ∀ k', 0 < k' → k' ∣ b.length → (shuffled k' b).length = b.length := by
    rintro k' hk' ⟨n, hn⟩; rw [shuffled_length hk' hn, hn]
  unfold unshuffleSized
  rcases hk with rfl | rfl | rfl | rfl
  · simp only
    obtain ⟨n, hn⟩ := hm
    rw [eq_of_getElem? (shuffled_length (by omega) hn) hn fun k hk => by
      rw [shuffled_get (by omega) hn k hk]
      congr 1
      rw [Nat.one_mul] at hk
      unfold shufPos; rw [Nat.mod_eq_of_lt hk, Nat.div_eq_of_lt hk]; omega]
  all_goals
    simp only
    exact structured_shuffled (by omega) hm (by rw [List.length_replicate, hl _ (by omega) hm])

end Hidefix.Proofs
